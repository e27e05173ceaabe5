import Verif.Lemmas.AesWalsh

/-! # Linear equations through AES -/

namespace Hacspec.Aes

open Hacspec.Spec Hacspec.Spec.Aes Hacspec.Ideal Finset

/-! ## The S-box -/

theorem odd8_nd (u x : U8) : odd8 (u &&& x) = nd 8 u.toNat x.toNat := by
  simp only [odd8, List.range_succ, List.range_zero, List.nil_append, List.cons_append, List.foldr_cons, List.foldr_nil,
    BitVec.getLsbD_and, nd, Bool.xor_false, Bool.false_xor, ← Bool.xor_assoc]
  rfl

theorem odds_odd8 : ∀ y : U8, odds >>> y.toNat % 2 = (odd8 y).toNat := by decide +kernel

theorem sub_tab (x : U8) : sub x = BitVec.ofNat 8 (tab x.toNat) := by
  have := subByte_tab x
  rw [subByte_ok, Except.ok.injEq] at this
  exact this

theorem tab_lt (x : Nat) : tab x < 256 := Nat.mod_lt _ (by omega)

theorem nd_tab {v x : Nat} (hv : v < 256) : odds >>> (v &&& tab x) % 2 = (nd 8 v (tab x)).toNat := by
  have h := odds_odd8 (BitVec.ofNat 8 v &&& BitVec.ofNat 8 (tab x))
  rw [odd8_nd, BitVec.toNat_and, BitVec.toNat_ofNat, BitVec.toNat_ofNat, Nat.mod_eq_of_lt hv, Nat.mod_eq_of_lt (tab_lt x)] at h
  exact h

theorem rowOf_packs {v : Nat} (hv : v < 256) (m : Nat) : Packs m 1 (rowOf v m) fun x => sg (nd 8 v (tab x)) := by
  refine ⟨fun x _ => ?_, ?_⟩
  · show -((1 : Nat) : Int) ≤ sg _ ∧ sg _ ≤ ((1 : Nat) : Int)
    rw [sg]
    split <;> simp
  · induction m with
    | zero => rfl
    | succ m ih =>
      rw [Finset.sum_range_succ, ← ih, rowOf, nd_tab hv]
      cases h : nd 8 v (tab m) <;> simp [sg, h]

theorem tableOk_get : ∀ {n v : Nat}, tableOk n = true → v < n → node (goodFor v) 8 0 1 (rowOf v 256) = true
  | n + 1, v, h, hv => by
    rw [tableOk, Bool.and_eq_true] at h
    by_cases e : v = n
    · rw [e]; exact h.1
    · exact tableOk_get h.2 (by omega)

/-- The bytes as numbers. -/
def byteFin : U8 ≃ Fin 256 where
  toFun x := x.toFin
  invFun i := BitVec.ofFin i
  left_inv _ := rfl
  right_inv _ := rfl

theorem sum_bytes (g : Nat → Int) : ∑ x ∈ range 256, g x = ∑ x : U8, g x.toNat := by
  rw [Finset.sum_range, ← Equiv.sum_comp byteFin]
  rfl

/-- The correlation of the bits selected by `u` before and those selected by `v` after the S-box, times 256. -/
def walsh (u v : U8) : Int := ∑ x : U8, sg (odd8 (u &&& x) ^^ odd8 (v &&& sub x))

theorem walsh_good (u v : U8) : ∃ R : Nat, goodFor v.toNat u.toNat 256 R = true ∧ (R : Int) = walsh u v + 256 := by
  obtain ⟨R, h1, h2⟩ := node_sound (by omega) (tableOk_get linear_table v.isLt) (rowOf_packs v.isLt 256) u.toNat u.isLt
  rw [Nat.zero_add] at h1
  refine ⟨R, h1, ?_⟩
  have e : ∑ x ∈ range (2 ^ 8), sg (nd 8 u.toNat x) * sg (nd 8 v.toNat (tab x)) = walsh u v := by
    rw [show (2 : Nat) ^ 8 = 256 from rfl, sum_bytes fun x => sg (nd 8 u.toNat x) * sg (nd 8 v.toNat (tab x)), walsh]
    refine Finset.sum_congr rfl fun x _ => ?_
    rw [sg_xor, odd8_nd, odd8_nd, sub_tab, BitVec.toNat_ofNat, Nat.mod_eq_of_lt (tab_lt _)]
  rw [h2, e]
  norm_num

theorem toNat_zero_iff (u : U8) : u.toNat = 0 ↔ u = 0 := by
  constructor
  · intro h
    exact BitVec.eq_of_toNat_eq h
  · rintro rfl
    rfl

theorem walsh_mismatch {u v : U8} (h : ¬ (u = 0 ↔ v = 0)) : walsh u v = 0 := by
  obtain ⟨R, h1, h2⟩ := walsh_good u v
  rw [← toNat_zero_iff, ← toNat_zero_iff] at h
  rw [goodFor] at h1
  have : R = 256 := by
    by_cases hv : v.toNat = 0
    · rw [if_pos hv, Bool.or_eq_true, decide_eq_true_eq, decide_eq_true_eq] at h1
      exact h1.resolve_left fun e => h ⟨fun _ => hv, fun _ => e⟩
    · have hu : u.toNat = 0 := by
        by_contra e
        exact h ⟨fun e' => absurd e' e, fun e' => absurd e' hv⟩
      rw [if_neg hv, if_pos hu, decide_eq_true_eq] at h1
      exact h1
  omega

theorem walsh_le {u v : U8} (hu : u ≠ 0) : -32 ≤ walsh u v ∧ walsh u v ≤ 32 := by
  by_cases hv : v = 0
  · rw [walsh_mismatch fun h => hu (h.mpr hv)]
    omega
  · obtain ⟨R, h1, h2⟩ := walsh_good u v
    rw [goodFor, if_neg fun e => hv ((toNat_zero_iff v).mp e), if_neg fun e => hu ((toNat_zero_iff u).mp e), Bool.and_eq_true,
      decide_eq_true_eq, decide_eq_true_eq] at h1
    omega

/-! ## Means of signs -/

/-- The mean of a function. -/
noncomputable def mean {Ω : Type} [Fintype Ω] (f : Ω → ℚ) : ℚ := (∑ ω, f ω) / Fintype.card Ω

theorem mean_forall {N : Nat} {B : Type} [Fintype B] (g : Fin N → B → ℚ) :
    mean (fun f : Fin N → B => ∏ i, g i (f i)) = ∏ i, mean (g i) := by
  classical
  unfold mean
  rw [Finset.prod_div_distrib, Finset.prod_const, Finset.card_univ, Fintype.card_fin, Fintype.card_fun, Fintype.card_fin, Nat.cast_pow]
  congr 1
  rw [Finset.prod_univ_sum]
  simp

theorem mean_equiv {Ω Ω' : Type} [Fintype Ω] [Fintype Ω'] (e : Ω ≃ Ω') (f : Ω' → ℚ) : mean (fun ω => f (e ω)) = mean f := by
  unfold mean
  rw [Equiv.sum_comp e f, Fintype.card_congr e]

theorem mean_abs_le {Ω : Type} [Fintype Ω] {f : Ω → ℚ} (h : ∀ ω, |f ω| ≤ 1) : |mean f| ≤ 1 := by
  unfold mean
  rw [abs_div, Nat.abs_cast]
  refine div_le_one_of_le₀ ((Finset.abs_sum_le_sum_abs _ _).trans ?_) (Nat.cast_nonneg _)
  refine (Finset.sum_le_sum fun ω _ => h ω).trans ?_
  simp

/-- The sign of a bit. -/
def sq (b : Bool) : ℚ := if b then -1 else 1

theorem sq_xor (a b : Bool) : sq (a ^^ b) = sq a * sq b := by cases a <;> cases b <;> simp [sq]

theorem sq_abs (b : Bool) : |sq b| ≤ 1 := by cases b <;> simp [sq]

theorem share_mean {Ω : Type} [Fintype Ω] [Nonempty Ω] {P : Ω → Prop} {b : Ω → Bool} (h : ∀ ω, P ω ↔ b ω = false) :
    share P - 1 / 2 = mean (fun ω => sq (b ω)) / 2 := by
  classical
  have hc : (Fintype.card Ω : ℚ) ≠ 0 := Nat.cast_ne_zero.mpr Fintype.card_ne_zero
  have e : ∀ ω, sq (b ω) = 2 * (if P ω then 1 else 0) - 1 := by
    intro ω
    by_cases hω : P ω
    · rw [if_pos hω, (h ω).mp hω]; norm_num [sq]
    · rw [if_neg hω]
      have : b ω = true := by
        cases hb : b ω
        · exact absurd ((h ω).mpr hb) hω
        · rfl
      rw [this]; norm_num [sq]
  unfold mean share
  rw [Finset.sum_congr rfl fun ω _ => e ω, Finset.sum_sub_distrib, ← Finset.mul_sum, Finset.sum_boole, Finset.sum_const,
    Finset.card_univ, nsmul_one]
  have : ((univ.filter P).card : ℚ) = (@Finset.filter Ω P (fun a => Classical.propDecidable (P a)) univ).card := by congr!
  rw [← this]
  field_simp

/-! ## One byte and one block -/

/-- The correlation for one byte. -/
noncomputable def cor (u v : U8) : ℚ := mean fun x : U8 => sq (odd8 (u &&& x) ^^ odd8 (v &&& sub x))

theorem cor_walsh (u v : U8) : cor u v = (walsh u v : ℚ) / 256 := by
  have hc : Fintype.card U8 = 256 := by decide +kernel
  rw [cor, mean, walsh, hc]
  push_cast
  congr 1
  refine Finset.sum_congr rfl fun x _ => ?_
  cases odd8 (u &&& x) ^^ odd8 (v &&& sub x) <;> simp [sg, sq]

theorem cor_abs (u v : U8) : |cor u v| ≤ factor (1 / 8) u := by
  rw [factor]
  split
  · exact mean_abs_le fun _ => sq_abs _
  · rename_i hu
    obtain ⟨h1, h2⟩ := walsh_le (v := v) hu
    rw [cor_walsh, abs_div, div_le_iff₀ (by norm_num), abs_le]
    have h1 : ((-32 : Int) : ℚ) ≤ walsh u v := Int.cast_le.mpr h1
    have h2 : (walsh u v : ℚ) ≤ ((32 : Int) : ℚ) := Int.cast_le.mpr h2
    norm_num at h1 h2 ⊢
    constructor <;> linarith

theorem cor_mismatch {u v : U8} (h : ¬ (u = 0 ↔ v = 0)) : cor u v = 0 := by
  rw [cor_walsh, walsh_mismatch h]
  simp

/-! ## The transpose of MixColumns -/

theorem foldr_xor_xor (l : List Nat) (f g : Nat → Bool) :
    l.foldr (fun i b => (f i ^^ g i) ^^ b) false = (l.foldr (fun i b => f i ^^ b) false ^^ l.foldr (fun i b => g i ^^ b) false) := by
  induction l with
  | nil => rfl
  | cons i l ih =>
    rw [List.foldr_cons, List.foldr_cons, List.foldr_cons, ih]
    cases f i <;> cases g i <;> simp

theorem odd8_xor (x y : U8) : odd8 (x ^^^ y) = (odd8 x ^^ odd8 y) := by
  unfold odd8
  rw [← foldr_xor_xor]
  simp only [BitVec.getLsbD_xor]

theorem and_xor (u x y : U8) : u &&& (x ^^^ y) = (u &&& x) ^^^ (u &&& y) := by
  ext i
  simp only [BitVec.getElem_and, BitVec.getElem_xor]
  cases u[i] <;> simp

theorem xor_and (x y u : U8) : (x ^^^ y) &&& u = (x &&& u) ^^^ (y &&& u) := by
  ext i
  simp only [BitVec.getElem_and, BitVec.getElem_xor]
  cases u[i] <;> simp

/-- A byte as the sum of its bits. -/
def bitsOf (f : Nat → U8) (x : U8) : U8 := (List.range 8).foldr (fun i r => (if x.getLsbD i then f i else 0) ^^^ r) 0

theorem bitsOf_unit : ∀ x : U8, bitsOf (fun i => 1 <<< i) x = x := by decide +kernel

theorem bitsOf_map {f : Nat → U8} {g : U8 → Bool} (h0 : g 0 = false) (hg : ∀ x y, g (x ^^^ y) = (g x ^^ g y)) (x : U8) :
    g (bitsOf f x) = (List.range 8).foldr (fun i r => (x.getLsbD i && g (f i)) ^^ r) false := by
  unfold bitsOf
  induction List.range 8 with
  | nil => exact h0
  | cons i l ih =>
    rw [List.foldr_cons, List.foldr_cons, hg, ih]
    congr 1
    split
    · rename_i h; rw [h, Bool.true_and]
    · rename_i h; rw [Bool.not_eq_true] at h; rw [h, Bool.false_and, h0]

/-- Two linear functions that agree on the bits. -/
theorem linear_ext {g g' : U8 → Bool} (h0 : g 0 = false) (hg : ∀ x y, g (x ^^^ y) = (g x ^^ g y)) (h0' : g' 0 = false)
    (hg' : ∀ x y, g' (x ^^^ y) = (g' x ^^ g' y)) (h : ∀ i < 8, g (1 <<< i) = g' (1 <<< i)) (x : U8) : g x = g' x := by
  rw [← bitsOf_unit x, bitsOf_map h0 hg, bitsOf_map h0' hg']
  simp only [List.range_succ, List.range_zero, List.nil_append, List.cons_append, List.foldr_cons, List.foldr_nil]
  rw [h 0 (by omega), h 1 (by omega), h 2 (by omega), h 3 (by omega), h 4 (by omega), h 5 (by omega), h 6 (by omega), h 7 (by omega)]

/-- The masks of multiples: `phi x` selects from `y` the lowest bit of the product of `x` and `y`. -/
def phi (x : U8) : U8 := bitsOf (fun i => [1, 128, 64, 32, 16, 136, 196, 98].getD i 0) x

theorem phi_xor (x y : U8) : phi (x ^^^ y) = phi x ^^^ phi y := by
  unfold phi bitsOf
  generalize (fun i => _ : Nat → U8) = f
  induction List.range 8 with
  | nil => exact (BitVec.xor_self (x := (0 : U8))).symm
  | cons i l ih =>
    rw [List.foldr_cons, List.foldr_cons, List.foldr_cons, ih, BitVec.getLsbD_xor]
    generalize List.foldr _ _ _ = a
    generalize List.foldr _ _ _ = b
    cases x.getLsbD i <;> cases y.getLsbD i
    · simp
    · simp [BitVec.xor_assoc, BitVec.xor_comm, xor_left_comm]
    · simp [BitVec.xor_assoc, BitVec.xor_comm, xor_left_comm]
    · simp [BitVec.xor_assoc, BitVec.xor_comm, xor_left_comm]

theorem phi_zero_iff : ∀ x : U8, phi x = 0 ↔ x = 0 := by decide +kernel

theorem nz_phi (x : U8) : nz (phi x) = nz x := by
  unfold nz
  simp only [phi_zero_iff]

theorem phi_surjective (u : U8) : ∃ x, phi x = u := by
  refine Finite.surjective_of_injective (f := phi) (fun x y h => ?_) u
  have : phi (x ^^^ y) = 0 := by rw [phi_xor, h]; exact BitVec.xor_self
  exact BitVec.xor_eq_zero_iff.mp ((phi_zero_iff _).mp this)

theorem adjoint2 (x y : U8) : odd8 (phi x &&& gmul 2 y) = odd8 (phi (gmul 2 x) &&& y) := by
  have hb : ∀ x : U8, ∀ i < 8, odd8 (phi x &&& gmul 2 (1 <<< i)) = odd8 (phi (gmul 2 x) &&& (1 <<< i)) := by decide +kernel
  refine linear_ext (g := fun y => odd8 (phi x &&& gmul 2 y)) (g' := fun y => odd8 (phi (gmul 2 x) &&& y)) ?_ ?_ ?_ ?_ (hb x) y
  · simp only [gmul_zero]
    rw [show phi x &&& 0 = 0 from BitVec.and_zero]
    rfl
  · intro a b
    simp only [gmul2_xor, and_xor, odd8_xor]
  · show odd8 (phi _ &&& 0) = _
    rw [show phi (gmul 2 x) &&& 0 = 0 from BitVec.and_zero]
    rfl
  · intro a b
    simp only [and_xor, odd8_xor]

theorem gmul3_sum : ∀ x : U8, gmul 3 x = gmul 2 x ^^^ x := by decide +kernel

theorem adjoint3 (x y : U8) : odd8 (phi x &&& gmul 3 y) = odd8 (phi (gmul 3 x) &&& y) := by
  rw [gmul3_sum, gmul3_sum, and_xor, odd8_xor, adjoint2, phi_xor, xor_and, odd8_xor]

/-- The sum of the selected bits of a column. -/
def dot4 (u0 u1 u2 u3 s0 s1 s2 s3 : U8) : Bool := odd8 (u0 &&& s0) ^^ odd8 (u1 &&& s1) ^^ odd8 (u2 &&& s2) ^^ odd8 (u3 &&& s3)

theorem dot4_col (x0 x1 x2 x3 s0 s1 s2 s3 : U8) :
    dot4 (phi x0) (phi x1) (phi x2) (phi x3) (gmul 2 s0 ^^^ gmul 3 s1 ^^^ gmul 1 s2 ^^^ gmul 1 s3)
      (gmul 1 s0 ^^^ gmul 2 s1 ^^^ gmul 3 s2 ^^^ gmul 1 s3) (gmul 1 s0 ^^^ gmul 1 s1 ^^^ gmul 2 s2 ^^^ gmul 3 s3)
      (gmul 3 s0 ^^^ gmul 1 s1 ^^^ gmul 1 s2 ^^^ gmul 2 s3) =
    dot4 (phi (gmul 2 x0 ^^^ gmul 1 x1 ^^^ gmul 1 x2 ^^^ gmul 3 x3)) (phi (gmul 3 x0 ^^^ gmul 2 x1 ^^^ gmul 1 x2 ^^^ gmul 1 x3))
      (phi (gmul 1 x0 ^^^ gmul 3 x1 ^^^ gmul 2 x2 ^^^ gmul 1 x3)) (phi (gmul 1 x0 ^^^ gmul 1 x1 ^^^ gmul 3 x2 ^^^ gmul 2 x3))
      s0 s1 s2 s3 := by
  simp only [dot4, gmul1, phi_xor, and_xor, xor_and, odd8_xor, adjoint2, adjoint3]
  have : Std.Commutative Bool.xor := ⟨Bool.xor_comm⟩
  ac_rfl

/-- The bytes of a mask and those of its image under the transpose: all zero, or at least five not zero. -/
theorem link_phi (x0 x1 x2 x3 : U8) :
    Link (nz (phi (gmul 2 x0 ^^^ gmul 1 x1 ^^^ gmul 1 x2 ^^^ gmul 3 x3))) (nz (phi (gmul 3 x0 ^^^ gmul 2 x1 ^^^ gmul 1 x2 ^^^ gmul 1 x3)))
      (nz (phi (gmul 1 x0 ^^^ gmul 3 x1 ^^^ gmul 2 x2 ^^^ gmul 1 x3))) (nz (phi (gmul 1 x0 ^^^ gmul 1 x1 ^^^ gmul 3 x2 ^^^ gmul 2 x3)))
      (nz (phi x0)) (nz (phi x1)) (nz (phi x2)) (nz (phi x3)) := by
  simp only [nz_phi]
  by_cases h : nz x0 + nz x1 + nz x2 + nz x3 = 0
  · refine .inl ⟨?_, h⟩
    have z : ∀ x, nz x = 0 → x = 0 := fun x hx => (nz_cases x).elim And.left fun h => by omega
    rw [z x0 (by omega), z x1 (by omega), z x2 (by omega), z x3 (by omega)]
    simp only [gmul_zero, xor_0, nz_zero]
  · have e := branch5 (a := x0) (b := x3) (c := x2) (d := x1) (a' := gmul 2 x0 ^^^ gmul 1 x1 ^^^ gmul 1 x2 ^^^ gmul 3 x3)
      (b' := gmul 1 x0 ^^^ gmul 1 x1 ^^^ gmul 3 x2 ^^^ gmul 2 x3) (c' := gmul 1 x0 ^^^ gmul 3 x1 ^^^ gmul 2 x2 ^^^ gmul 1 x3)
      (d' := gmul 3 x0 ^^^ gmul 2 x1 ^^^ gmul 1 x2 ^^^ gmul 1 x3) (by
        simp only [col, gmul1, List.cons.injEq, and_true]
        refine ⟨?_, ?_, ?_, ?_⟩ <;> simp only [BitVec.xor_assoc, BitVec.xor_comm, xor_left_comm]) (by omega)
    refine .inr ?_
    omega

/-- Whether byte `i` is not zero. -/
def live (u : List U8) (i : Nat) : Nat := nz (u.getD i 0)

/-- What ShiftRows and MixColumns do to masks. -/
def Linked (x y : Nat → Nat) : Prop :=
  Link (x 0) (x 5) (x 10) (x 15) (y 0) (y 1) (y 2) (y 3) ∧ Link (x 4) (x 9) (x 14) (x 3) (y 4) (y 5) (y 6) (y 7) ∧
    Link (x 8) (x 13) (x 2) (x 7) (y 8) (y 9) (y 10) (y 11) ∧ Link (x 12) (x 1) (x 6) (x 11) (y 12) (y 13) (y 14) (y 15)

theorem dot_16 (u0 u1 u2 u3 u4 u5 u6 u7 u8 u9 u10 u11 u12 u13 u14 u15 s0 s1 s2 s3 s4 s5 s6 s7 s8 s9 s10 s11 s12 s13 s14 s15 : U8) :
    dot [u0, u1, u2, u3, u4, u5, u6, u7, u8, u9, u10, u11, u12, u13, u14, u15]
      [s0, s1, s2, s3, s4, s5, s6, s7, s8, s9, s10, s11, s12, s13, s14, s15] =
    (dot4 u0 u1 u2 u3 s0 s1 s2 s3 ^^ dot4 u4 u5 u6 u7 s4 s5 s6 s7 ^^ dot4 u8 u9 u10 u11 s8 s9 s10 s11 ^^
      dot4 u12 u13 u14 u15 s12 s13 s14 s15) := by
  simp only [dot, dot4, List.zipWith_cons_cons, List.zipWith_nil_left, List.foldr_cons, List.foldr_nil, Bool.xor_false, Bool.xor_assoc]

theorem transpose (u : Bytes 16) : ∃ v : Bytes 16, (∀ s : List U8, s.length = 16 → dot u.1 (lin s) = dot v.1 s) ∧
    Linked (live v.1) (live u.1) := by
  obtain ⟨u, hu⟩ := u
  obtain ⟨a0, a1, a2, a3, a4, a5, a6, a7, a8, a9, a10, a11, a12, a13, a14, a15, rfl⟩ := exists16 hu
  obtain ⟨x0, rfl⟩ := phi_surjective a0
  obtain ⟨x1, rfl⟩ := phi_surjective a1
  obtain ⟨x2, rfl⟩ := phi_surjective a2
  obtain ⟨x3, rfl⟩ := phi_surjective a3
  obtain ⟨x4, rfl⟩ := phi_surjective a4
  obtain ⟨x5, rfl⟩ := phi_surjective a5
  obtain ⟨x6, rfl⟩ := phi_surjective a6
  obtain ⟨x7, rfl⟩ := phi_surjective a7
  obtain ⟨x8, rfl⟩ := phi_surjective a8
  obtain ⟨x9, rfl⟩ := phi_surjective a9
  obtain ⟨x10, rfl⟩ := phi_surjective a10
  obtain ⟨x11, rfl⟩ := phi_surjective a11
  obtain ⟨x12, rfl⟩ := phi_surjective a12
  obtain ⟨x13, rfl⟩ := phi_surjective a13
  obtain ⟨x14, rfl⟩ := phi_surjective a14
  obtain ⟨x15, rfl⟩ := phi_surjective a15
  let y0 := fun x0 x1 x2 x3 : U8 => phi (gmul 2 x0 ^^^ gmul 1 x1 ^^^ gmul 1 x2 ^^^ gmul 3 x3)
  let y1 := fun x0 x1 x2 x3 : U8 => phi (gmul 3 x0 ^^^ gmul 2 x1 ^^^ gmul 1 x2 ^^^ gmul 1 x3)
  let y2 := fun x0 x1 x2 x3 : U8 => phi (gmul 1 x0 ^^^ gmul 3 x1 ^^^ gmul 2 x2 ^^^ gmul 1 x3)
  let y3 := fun x0 x1 x2 x3 : U8 => phi (gmul 1 x0 ^^^ gmul 1 x1 ^^^ gmul 3 x2 ^^^ gmul 2 x3)
  refine ⟨⟨[y0 x0 x1 x2 x3, y1 x12 x13 x14 x15, y2 x8 x9 x10 x11, y3 x4 x5 x6 x7, y0 x4 x5 x6 x7, y1 x0 x1 x2 x3, y2 x12 x13 x14 x15,
    y3 x8 x9 x10 x11, y0 x8 x9 x10 x11, y1 x4 x5 x6 x7, y2 x0 x1 x2 x3, y3 x12 x13 x14 x15, y0 x12 x13 x14 x15, y1 x8 x9 x10 x11,
    y2 x4 x5 x6 x7, y3 x0 x1 x2 x3], rfl⟩, ?_, ?_⟩
  · intro s hs
    obtain ⟨b0, b1, b2, b3, b4, b5, b6, b7, b8, b9, b10, b11, b12, b13, b14, b15, rfl⟩ := exists16 hs
    have e : Spec.Aes.shiftRows [b0, b1, b2, b3, b4, b5, b6, b7, b8, b9, b10, b11, b12, b13, b14, b15] =
        [b0, b5, b10, b15, b4, b9, b14, b3, b8, b13, b2, b7, b12, b1, b6, b11] := by
      simp [Spec.Aes.shiftRows, List.range_succ]
    rw [lin, e, mixColumns_mixWith, show coeffs = [2, 1, 1, 3] from rfl, mixWith_eval]
    simp only [col, List.cons_append, List.nil_append]
    rw [dot_16, dot_16, dot4_col, dot4_col, dot4_col, dot4_col]
    simp only [dot4, y0, y1, y2, y3]
    have : Std.Commutative Bool.xor := ⟨Bool.xor_comm⟩
    ac_rfl
  · exact ⟨link_phi .., link_phi .., link_phi .., link_phi ..⟩

/-! ## Blocks -/

theorem sq_foldr (l : List Bool) : sq (l.foldr Bool.xor false) = (l.map sq).prod := by
  induction l with
  | nil => rfl
  | cons b l ih => rw [List.foldr_cons, sq_xor, ih, List.map_cons, List.prod_cons]

theorem sq_dot (u s : Bytes 16) : sq (dot u.1 s.1) = ∏ i : Fin 16, sq (odd8 (bytesEquiv 16 u i &&& bytesEquiv 16 s i)) := by
  rw [dot, sq_foldr, ← List.prod_ofFn]
  congr 1
  refine List.ext_getElem (by rw [List.length_map, List.length_zipWith, u.2, s.2, List.length_ofFn]; rfl) fun i h1 h2 => ?_
  rw [List.getElem_map, List.getElem_zipWith, List.getElem_ofFn]
  rfl

theorem dot_xor {u a b : List U8} (ha : a.length = b.length) : dot u (Spec.xor a b) = (dot u a ^^ dot u b) := by
  induction u generalizing a b with
  | nil => rfl
  | cons x u ih =>
    match a, b, ha with
    | [], [], _ => rfl
    | y :: a, z :: b, h =>
      have h : a.length = b.length := by simpa using h
      have ih := ih h
      simp only [dot, Spec.xor, List.zipWith_cons_cons, List.foldr_cons] at ih ⊢
      rw [ih, and_xor, odd8_xor]
      have : Std.Commutative Bool.xor := ⟨Bool.xor_comm⟩
      ac_rfl

/-- The sign for one round. -/
def roundSign (u w : Bytes 16) (s : Bytes 16) : ℚ := sq (dot u.1 s.1 ^^ dot w.1 (lin (Spec.Aes.subBytes s.1)))

theorem roundSign_prod {u w v : Bytes 16} (hv : ∀ s : List U8, s.length = 16 → dot w.1 (lin s) = dot v.1 s) (s : Bytes 16) :
    roundSign u w s = ∏ i : Fin 16, sq (odd8 (bytesEquiv 16 u i &&& bytesEquiv 16 s i) ^^
      odd8 (bytesEquiv 16 v i &&& sub (bytesEquiv 16 s i))) := by
  have hl : (Spec.Aes.subBytes s.1).length = 16 := by rw [length_subBytes, s.2]
  rw [roundSign, hv _ hl, sq_xor, sq_dot, sq_dot v ⟨Spec.Aes.subBytes s.1, hl⟩, ← Finset.prod_mul_distrib]
  refine Finset.prod_congr rfl fun i _ => ?_
  rw [sq_xor]
  congr 4
  simp [bytesEquiv, Spec.Aes.subBytes]

theorem mean_roundSign {u w v : Bytes 16} (hv : ∀ s : List U8, s.length = 16 → dot w.1 (lin s) = dot v.1 s) :
    mean (roundSign u w) = ∏ i : Fin 16, cor (bytesEquiv 16 u i) (bytesEquiv 16 v i) := by
  rw [show roundSign u w = _ from funext (roundSign_prod hv)]
  refine (mean_equiv (bytesEquiv 16) fun f : Fin 16 → U8 => ∏ i : Fin 16, sq (odd8 (bytesEquiv 16 u i &&& f i) ^^
      odd8 (bytesEquiv 16 v i &&& sub (f i)))).trans ?_
  rw [mean_forall fun i x => sq (odd8 (bytesEquiv 16 u i &&& x) ^^ odd8 (bytesEquiv 16 v i &&& sub x))]
  rfl

theorem mean_round_abs (u w : Bytes 16) : |mean (roundSign u w)| ≤ (1 / 8) ^ weight u.1 := by
  obtain ⟨v, hv, -⟩ := transpose w
  rw [mean_roundSign hv, Finset.abs_prod, ← weight_bytes]
  exact Finset.prod_le_prod (fun i _ => abs_nonneg _) fun i _ => cor_abs _ _

theorem live_bytes (u : Bytes 16) (i : Fin 16) : live u.1 i = nz (bytesEquiv 16 u i) := by
  have h : i.1 < u.1.length := by rw [u.2]; exact i.2
  simp [live, bytesEquiv, h]

theorem mean_round_linked {u w : Bytes 16} (h : mean (roundSign u w) ≠ 0) : Linked (live u.1) (live w.1) := by
  obtain ⟨v, hv, hl⟩ := transpose w
  rw [mean_roundSign hv, Finset.prod_ne_zero_iff] at h
  have e : ∀ i : Fin 16, live u.1 i = live v.1 i := by
    intro i
    have hi : bytesEquiv 16 u i = 0 ↔ bytesEquiv 16 v i = 0 := by
      by_contra hn
      exact h i (Finset.mem_univ _) (cor_mismatch hn)
    rw [live_bytes, live_bytes, nz, nz]
    simp only [hi]
  have e0 := e 0; have e1 := e 1; have e2 := e 2; have e3 := e 3; have e4 := e 4; have e5 := e 5; have e6 := e 6; have e7 := e 7
  have e8 := e 8; have e9 := e 9; have e10 := e 10; have e11 := e 11; have e12 := e 12; have e13 := e 13; have e14 := e 14
  have e15 := e 15
  unfold Linked at hl ⊢
  rw [show live u.1 0 = live v.1 0 from e0, show live u.1 1 = live v.1 1 from e1, show live u.1 2 = live v.1 2 from e2,
    show live u.1 3 = live v.1 3 from e3, show live u.1 4 = live v.1 4 from e4, show live u.1 5 = live v.1 5 from e5,
    show live u.1 6 = live v.1 6 from e6, show live u.1 7 = live v.1 7 from e7, show live u.1 8 = live v.1 8 from e8,
    show live u.1 9 = live v.1 9 from e9, show live u.1 10 = live v.1 10 from e10, show live u.1 11 = live v.1 11 from e11,
    show live u.1 12 = live v.1 12 from e12, show live u.1 13 = live v.1 13 from e13, show live u.1 14 = live v.1 14 from e14,
    show live u.1 15 = live v.1 15 from e15]
  exact hl

/-! ## Many rounds -/

theorem sq_sq (b : Bool) : sq b * sq b = 1 := by cases b <;> simp [sq]

theorem telescope (u : Nat → Bytes 16) (K : Nat → Bytes 16) (s : Bytes 16) (n : Nat) :
    sq (dot (u 0).1 s.1) * sq (dot (u n).1 (states K s n).1) * ∏ i ∈ range n, sq (dot (u (i + 1)).1 (K i).1) =
      ∏ i ∈ range n, roundSign (u i) (u (i + 1)) (states K s i) := by
  induction n with
  | zero => simp [states, sq_sq]
  | succ n ih =>
    rw [Finset.prod_range_succ, Finset.prod_range_succ, ← ih, roundSign, sq_xor, states, roundB,
      dot_xor ((length_lin _).trans (K n).2.symm), sq_xor]
    have h1 := sq_sq (dot (u n).1 (states K s n).1)
    have h2 := sq_sq (dot (u (n + 1)).1 (K n).1)
    linear_combination (sq (dot (u 0).1 s.1) * sq (dot (u (n + 1)).1 (lin (Spec.Aes.subBytes (states K s n).1))) *
      ∏ i ∈ range n, sq (dot (u (i + 1)).1 (K i).1)) * (h2 - h1)

/-- The sum of both sides of the equation. -/
def lineBit (u : Nat → Bytes 16) {n : Nat} (k : Fin n → Bytes 16) (s : Bytes 16) : Bool :=
  (dot (u 0).1 s.1 ^^ dot (u n).1 (states (allKeys k) s n).1) ^^
    ((List.finRange n).map fun i : Fin n => dot (u (i + 1)).1 (k i).1).foldr Bool.xor false

theorem holds_lineBit (u : Nat → Bytes 16) {n : Nat} (k : Fin n → Bytes 16) (s : Bytes 16) :
    LinearHolds aesEnc u k s ↔ lineBit u k s = false := by
  have hx : ∀ a b : Bool, a = b ↔ (a ^^ b) = false := by intro a b; cases a <;> cases b <;> decide
  rw [lineBit, ← hx]
  constructor
  · rintro ⟨a, ha, hr, h⟩
    have hs : ∀ i, i ≤ n → a i = (states (allKeys k) s i).1 := by
      intro i hi
      induction i with
      | zero => exact ha
      | succ i ih =>
        have e := hr ⟨i, hi⟩
        simp only at e
        rw [ih (by omega), aesEnc_round, Except.ok.injEq] at e
        rw [← e, states, ← allKeys_fin k ⟨i, hi⟩]
    rw [hs n le_rfl, ha] at h
    exact h
  · intro h
    refine ⟨fun i => (states (allKeys k) s i).1, rfl, fun i => ?_, h⟩
    rw [aesEnc_round]
    show _ = Except.ok (roundB _ (allKeys k i)).1
    rw [allKeys_fin]

theorem sq_lineBit (u : Nat → Bytes 16) {n : Nat} (k : Fin n → Bytes 16) (s : Bytes 16) :
    sq (lineBit u k s) = ∏ i : Fin n, roundSign (u i) (u (i + 1)) (states (allKeys k) s i) := by
  rw [lineBit, sq_xor, sq_xor, sq_foldr, List.map_map]
  have e : ((List.finRange n).map (sq ∘ fun i : Fin n => dot (u (i + 1)).1 (k i).1)).prod =
      ∏ i ∈ range n, sq (dot (u (i + 1)).1 (allKeys k i).1) := by
    rw [Finset.prod_range, ← List.prod_ofFn, List.ofFn_eq_map]
    congr 1
    refine List.map_congr_left fun i _ => ?_
    rw [allKeys_fin]
    rfl
  rw [e, telescope, Finset.prod_range]

/-- Rounds with independent keys: the correlations are multiplied. -/
theorem mean_lineBit (u : Nat → Bytes 16) (n : Nat) :
    mean (fun ω : (Fin n → Bytes 16) × Bytes 16 => sq (lineBit u ω.1 ω.2)) = ∏ i : Fin n, mean (roundSign (u i) (u (i + 1))) := by
  let g : Fin (n + 1) → Bytes 16 → ℚ := fun i s => if i.1 < n then roundSign (u i) (u (i + 1)) s else 1
  have e1 : (fun ω : (Fin n → Bytes 16) × Bytes 16 => sq (lineBit u ω.1 ω.2)) =
      fun ω => (fun f : Fin (n + 1) → Bytes 16 => ∏ i, g i (f i)) (Equiv.ofBijective _ (states_bij n) ω) := by
    funext ω
    rw [sq_lineBit]
    show _ = ∏ i : Fin (n + 1), g i (states (allKeys ω.1) ω.2 i)
    rw [Fin.prod_univ_castSucc]
    simp only [g, Fin.val_castSucc, Fin.is_lt, if_true, Fin.val_last, lt_irrefl, if_false, mul_one]
  rw [e1]
  refine (mean_equiv (Equiv.ofBijective _ (states_bij n)) fun f : Fin (n + 1) → Bytes 16 => ∏ i, g i (f i)).trans ?_
  rw [mean_forall g, Fin.prod_univ_castSucc]
  have e2 : mean (g (Fin.last n)) = 1 := by
    have hn : Nonempty (Bytes 16) := ⟨⟨List.replicate 16 0, rfl⟩⟩
    have hc : (Fintype.card (Bytes 16) : ℚ) ≠ 0 := Nat.cast_ne_zero.mpr Fintype.card_ne_zero
    simp only [mean, g, Fin.val_last, lt_irrefl, if_false, Finset.sum_const, Finset.card_univ, nsmul_one]
    exact div_self hc
  rw [e2, mul_one]
  simp only [g, Fin.val_castSucc, Fin.is_lt, if_true]

theorem weight_total (u : Bytes 16) : weight u.1 = total (live u.1) := by
  obtain ⟨u, hu⟩ := u
  obtain ⟨a0, a1, a2, a3, a4, a5, a6, a7, a8, a9, a10, a11, a12, a13, a14, a15, rfl⟩ := exists16 hu
  have c : ∀ (x : U8) l, weight (x :: l) = nz x + weight l := by
    intro x l
    rw [weight, weight, List.filter_cons, nz]
    by_cases h : x = 0
    · rw [if_pos h, if_neg (by simp [h]), Nat.zero_add]
    · rw [if_neg h, if_pos (bne_iff_ne.mpr h), List.length_cons, Nat.add_comm]
  simp only [c, show weight [] = 0 from rfl]
  simp only [total, live, List.getD_cons_zero, List.getD_cons_succ]
  omega

theorem Linked.total_pos {x y : Nat → Nat} (h : Linked x y) (hx : ∀ i, x i ≤ 1) (hy : ∀ i, y i ≤ 1) :
    1 ≤ total x ↔ 1 ≤ total y := by
  obtain ⟨h0, h1, h2, h3⟩ := h
  have a0 := hx 0; have a1 := hx 1; have a2 := hx 2; have a3 := hx 3; have a4 := hx 4; have a5 := hx 5; have a6 := hx 6
  have a7 := hx 7; have a8 := hx 8; have a9 := hx 9; have a10 := hx 10; have a11 := hx 11; have a12 := hx 12; have a13 := hx 13
  have a14 := hx 14; have a15 := hx 15
  have b0 := hy 0; have b1 := hy 1; have b2 := hy 2; have b3 := hy 3; have b4 := hy 4; have b5 := hy 5; have b6 := hy 6
  have b7 := hy 7; have b8 := hy 8; have b9 := hy 9; have b10 := hy 10; have b11 := hy 11; have b12 := hy 12; have b13 := hy 13
  have b14 := hy 14; have b15 := hy 15
  unfold Link at h0 h1 h2 h3
  have k0 : x 0 + x 5 + x 10 + x 15 = 0 ↔ y 0 + y 1 + y 2 + y 3 = 0 := by omega
  have k1 : x 4 + x 9 + x 14 + x 3 = 0 ↔ y 4 + y 5 + y 6 + y 7 = 0 := by omega
  have k2 : x 8 + x 13 + x 2 + x 7 = 0 ↔ y 8 + y 9 + y 10 + y 11 = 0 := by omega
  have k3 : x 12 + x 1 + x 6 + x 11 = 0 ↔ y 12 + y 13 + y 14 + y 15 = 0 := by omega
  clear h0 h1 h2 h3
  unfold total
  omega

/-- Masks that are linked over `4 m` rounds. -/
theorem linked_weight {u : Nat → Bytes 16} {m : Nat} (h : ∀ i < 4 * m, Linked (live (u i).1) (live (u (i + 1)).1)) {j : Nat}
    (hj : j ≤ 4 * m) (h1 : 1 ≤ weight (u j).1) : 25 * m ≤ ((List.range (4 * m)).map fun i => weight (u i).1).sum := by
  have le : ∀ i j, live (u i).1 j ≤ 1 := fun i j => nz_le _
  have pos0 : ∀ j, j ≤ 4 * m → (1 ≤ total (live (u j).1) ↔ 1 ≤ total (live (u 0).1)) := by
    intro j hj
    induction j with
    | zero => rfl
    | succ j ih => rw [← (h j (by omega)).total_pos (le _) (le _), ih (by omega)]
  have pos : ∀ i, i ≤ 4 * m → 1 ≤ total (live (u i).1) := fun i hi => by
    rw [pos0 i hi, ← pos0 j hj, ← weight_total]
    exact h1
  clear h1 hj pos0
  induction m with
  | zero => simp
  | succ m ih =>
    have ih := ih (fun i hi => h i (by omega)) fun i hi => pos i (by omega)
    obtain ⟨l0, l1, l2, l3⟩ := h (4 * m) (by omega)
    obtain ⟨m0, m1, m2, m3⟩ := h (4 * m + 1) (by omega)
    obtain ⟨n0, n1, n2, n3⟩ := h (4 * m + 1 + 1) (by omega)
    have h4 := four_rounds_total (le _) (le _) (le _) (le _) (pos (4 * m + 1) (by omega)) l0 l1 l2 l3 m0 m1 m2 m3 n0 n1 n2 n3
    rw [← weight_total, ← weight_total, ← weight_total, ← weight_total] at h4
    rw [show 4 * (m + 1) = 4 * m + 1 + 1 + 1 + 1 by omega]
    simp only [List.range_succ, List.map_append, List.sum_append, List.map_cons, List.map_nil, List.sum_cons, List.sum_nil]
    simp only [Nat.add_assoc, Nat.reduceAdd] at h4 ⊢
    omega

end Hacspec.Aes
