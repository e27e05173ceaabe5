import Verif.Props.ChaChas
import Verif.Props.Polys
import Verif.Props.Words

/-! # Further functions of C02, C16, C19, C25, C30, C38, C59: constants, constructors, the keyed MAC -/

namespace Hacspec.Props

open SecretInt MachineInt AbstractInt

variable {w : Nat}

/-! ## C02: the constants -/

/-- C02: `zero` and `one` are the neutral elements, `ones` and `max_value` the largest values: `2^w - 1` of unsigned
types, `2^(w-1) - 1` of signed types, where `ones` is `-1`. -/
theorem C02_constants (hw : 0 < w) (x : BitVec w) :
    SecretInt.add x zero = x ∧ SecretInt.mul x one = x ∧ SecretInt.add (one : BitVec w) ones = zero ∧
    (ones : BitVec w).toNat = 2 ^ w - 1 ∧ (Words.maxValueU w).toNat = 2 ^ w - 1 ∧ (ones : BitVec w).toInt = -1 ∧
    (Words.maxValueS w).toInt = 2 ^ (w - 1) - 1 ∧ x.toNat ≤ (Words.maxValueU w).toNat ∧
    x.toInt ≤ (Words.maxValueS w).toInt := by
  have ho : (ones : BitVec w) = BitVec.allOnes w := by simp [ones, zero, BitVec.not_zero]
  have hp : 2 ^ w = 2 * 2 ^ (w - 1) := by rw [← Nat.pow_succ']; congr 1; omega
  have hp1 : 0 < 2 ^ (w - 1) := Nat.two_pow_pos _
  have hS : (Words.maxValueS w).toNat = 2 ^ (w - 1) - 1 := by
    rw [Words.maxValueS, BitVec.toNat_ushiftRight, BitVec.toNat_allOnes, Nat.shiftRight_eq_div_pow]
    omega
  have hSi : (Words.maxValueS w).toInt = 2 ^ (w - 1) - 1 := by
    rw [BitVec.toInt_eq_toNat_cond, if_pos (by omega), hS]
    push_cast [Nat.one_le_two_pow]; ring
  refine ⟨by simp [SecretInt.add, zero], by simp [SecretInt.mul, one], ?_, ?_, ?_, ?_, hSi, ?_, ?_⟩
  · rw [ho]
    apply BitVec.eq_of_toNat_eq
    simp only [SecretInt.add, one, zero, BitVec.toNat_add, BitVec.toNat_ofNat, BitVec.toNat_allOnes]
    rw [Nat.mod_eq_of_lt (show 1 < 2 ^ w by omega), show 1 + (2 ^ w - 1) = 2 ^ w by omega]
    simp
  · rw [ho, BitVec.toNat_allOnes]
  · rw [Words.maxValueU, BitVec.toNat_allOnes]
  · rw [ho, BitVec.toInt_allOnes, if_pos hw]
  · rw [Words.maxValueU, BitVec.toNat_allOnes]; have := x.isLt; omega
  · rw [hSi]
    have := BitVec.toInt_lt (x := x)
    omega

example : (Words.maxValueS 8).toInt = 127 ∧ (Words.maxValueU 8).toNat = 255 := by decide

/-! ## C16, C19 -/

/-- C16: `from_public_slice` of byte sequences keeps every byte. -/
theorem C16_from_public_slice (v : List U8) : Words.seqFromPublicSlice v = v := by
  rw [Words.seqFromPublicSlice]
  show v.map classify = v
  exact List.map_id' v

/-- C19 refuted for `%`, `!`, `|`, `&`, `<<`, `>>` on arrays: the operators exist and panic on all operands, although
the operation is defined on every pair of elements. -/
theorem C19_array_operators_refuted (a b : List (BitVec w)) : VecInt.arrUnimplemented a b = panic := rfl

/-! ## C25 -/

/-- C25: `from_secret_literal` accepts exactly the literals up to the modulus and keeps their value. -/
theorem C25_from_secret_literal {T : NatMod.NatTy} (hT : T.WF) (x : U128) :
    (x.toNat ≤ T.n → ∃ c, Words.fromSecretLiteral T x = .ok c ∧ val c = x.toNat) ∧
    (T.n < x.toNat → Words.fromSecretLiteral T x = panic) := by
  constructor
  · intro h
    exact ⟨_, NatMod.fromLiteral_enc hT x h, NatMod.toBigUint_tenc _⟩
  · intro h
    show NatMod.fromLiteral T x = panic
    rw [NatMod.fromLiteral, NatMod.maxC_ok hT, bind_ok, toBigUint_enc, if_pos h]

example : ∃ c, Words.fromSecretLiteral ⟨8, 13⟩ 12#128 = .ok c ∧ val c = 12 :=
  (C25_from_secret_literal (by decide) _).1 (by decide)
example : Words.fromSecretLiteral ⟨8, 13⟩ 14#128 = panic := (C25_from_secret_literal (by decide) _).2 (by decide)

/-! ## C30, C59 -/

/-- C30: `poly_z_inv` inverts every coefficient: for a vector of units modulo `n` the result has the same length and is
the inverse at every position; one coefficient that is neither zero nor a unit makes the call panic. -/
theorem C30_z_inv (hw : 1 < w) (O : Poly.NumOps w) (B : Nat)
    (hO : (O.toIntOps = pubU ∨ O.toIntOps = secU) ∧ B = 2 ^ w ∨
      (O.toIntOps = pubS ∨ O.toIntOps = secS) ∧ B = 2 ^ (w - 1))
    (v : List (BitVec w)) (n : BitVec w) (hn : 1 < n.toNat) (hN : n.toNat * n.toNat ≤ B)
    (hv : ∀ x ∈ v, 0 < x.toNat ∧ x.toNat < B) :
    ((∀ x ∈ v, Nat.gcd x.toNat n.toNat = 1) → ∃ r, Poly.polyZInv O v n = .ok r ∧ r.length = v.length ∧
      ∀ i (h : i < v.length) (h' : i < r.length), r[i].toNat < n.toNat ∧ (r[i].toNat * v[i].toNat) % n.toNat = 1) ∧
    ((∃ x ∈ v, Nat.gcd x.toNat n.toNat ≠ 1) → Poly.polyZInv O v n = panic) := by
  unfold Poly.polyZInv
  induction v with
  | nil => exact ⟨fun _ => ⟨[], rfl, rfl, fun i h => absurd h (by simp)⟩, fun ⟨x, h, _⟩ => absurd h (by simp)⟩
  | cons a v ih =>
    obtain ⟨h1, h2⟩ := ih fun x hx => hv x (List.mem_cons_of_mem _ hx)
    obtain ⟨ha, haB⟩ := hv a List.mem_cons_self
    obtain ⟨i1, i2⟩ := C11_inv_partial hw O.toIntOps B hO a n ha haB hn hN
    rw [List.mapM_cons]
    by_cases hg : Nat.gcd a.toNat n.toNat = 1
    · obtain ⟨y, hy, hyn, hy1⟩ := i1 hg
      constructor
      · intro h
        obtain ⟨r, hr, hl, hr1⟩ := h1 fun x hx => h x (List.mem_cons_of_mem _ hx)
        refine ⟨y :: r, by rw [hy, bind_ok, hr, bind_ok]; rfl, by simp [hl], fun i hi hi' => ?_⟩
        cases i with
        | zero => exact ⟨hyn, hy1⟩
        | succ i => exact hr1 i (by simpa using hi) (by simpa using hi')
      · rintro ⟨x, hx, hxg⟩
        have hx : x ∈ v := by
          rcases List.mem_cons.1 hx with rfl | hx
          · exact absurd hg hxg
          · exact hx
        rw [hy, bind_ok, h2 ⟨x, hx, hxg⟩, bind_panic]
    · exact ⟨fun h => absurd (h a List.mem_cons_self) hg, fun _ => by rw [i2 hg, bind_panic]⟩

example : Poly.polyZInv Poly.numPubU [1#128, 2#128, 5#128] 11#128 = .ok [1#128, 6#128, 9#128] := by decide +kernel
example : Poly.polyZInv Poly.numPubU [1#128, 2#128, 5#128] 10#128 = panic := by decide +kernel

/-- Specification: the coefficient that a list of pairs assigns to a position: the last one, or 0. -/
def lastAt (p : List (Nat × BitVec w)) (i : Nat) : BitVec w :=
  ((p.reverse.find? fun c => c.1 == i).map (·.2)).getD 0#w

theorem setSparse_spec (p : List (Nat × BitVec w)) (a : List (BitVec w)) :
    ((∀ c ∈ p, c.1 < a.length) → ∃ r, Poly.setSparse p a = .ok r ∧ r.length = a.length ∧
      ∀ i, i < a.length → r[i]? = ((p.reverse.find? fun c => c.1 == i).map (·.2)).or a[i]?) ∧
    ((∃ c ∈ p, a.length ≤ c.1) → Poly.setSparse p a = panic) := by
  unfold Poly.setSparse
  induction p generalizing a with
  | nil => exact ⟨fun _ => ⟨a, rfl, rfl, fun i _ => rfl⟩, fun ⟨x, h, _⟩ => absurd h (by simp)⟩
  | cons c p ih =>
    rw [Poly.forEach]
    by_cases hc : c.1 < a.length
    · rw [setIdx_ok hc, bind_ok]
      obtain ⟨h1, h2⟩ := ih (a.set c.1 c.2)
      simp only [List.length_set] at h1 h2
      constructor
      · intro h
        obtain ⟨r, hr, hl, hi⟩ := h1 fun x hx => h x (List.mem_cons_of_mem _ hx)
        refine ⟨r, hr, hl, fun i hil => ?_⟩
        rw [hi i hil, List.reverse_cons, List.find?_append]
        cases p.reverse.find? fun c => c.1 == i with
        | some y => rfl
        | none =>
          by_cases e : c.1 = i
          · subst e; simp [hc]
          · simp [e, List.getElem?_set]
      · rintro ⟨x, hx, hxl⟩
        rcases List.mem_cons.1 hx with rfl | hx
        · omega
        · exact h2 ⟨x, hx, hxl⟩
    · refine ⟨fun h => absurd (h c List.mem_cons_self) hc, fun _ => ?_⟩
      rw [setIdx_panic (Nat.le_of_not_lt hc), bind_panic]

/-- C59: `new` builds the polynomial with the listed coefficients: `l` coefficients, each the last one listed for its
position, 0 at the others; a position outside the declared length panics. -/
theorem C59_new (P : Poly.PolyTy w) (f : List (BitVec w)) (hf : Poly.irr P = .ok f) (p : List (Nat × BitVec w)) :
    ((∀ c ∈ p, c.1 < P.l) → ∃ r, Poly.newSparse P p = .ok r ∧ r.length = P.l ∧
      ∀ i, i < P.l → r[i]? = some (lastAt p i)) ∧
    ((∃ c ∈ p, P.l ≤ c.1) → Poly.newSparse P p = panic) := by
  obtain ⟨h1, h2⟩ := setSparse_spec p (List.replicate P.l 0#w)
  simp only [List.length_replicate] at h1 h2
  constructor
  · intro h
    obtain ⟨r, hr, hl, hi⟩ := h1 h
    refine ⟨r, by rw [Poly.newSparse, hr, bind_ok, hf, bind_ok], hl, fun i hil => ?_⟩
    rw [hi i hil, List.getElem?_replicate, if_pos hil, lastAt]
    cases p.reverse.find? fun c => c.1 == i <;> rfl
  · intro h
    rw [Poly.newSparse, h2 h, bind_panic]

/-- C59: the modulus of the ring has the declared coefficients, one more than the elements. -/
theorem C59_irr (P : Poly.PolyTy w) :
    ((∀ c ∈ P.m, c.1 ≤ P.l) → ∃ r, Poly.irr P = .ok r ∧ r.length = P.l + 1 ∧
      ∀ i, i ≤ P.l → r[i]? = some (lastAt P.m i)) ∧
    ((∃ c ∈ P.m, P.l < c.1) → Poly.irr P = panic) := by
  obtain ⟨h1, h2⟩ := setSparse_spec P.m (List.replicate (P.l + 1) 0#w)
  simp only [List.length_replicate] at h1 h2
  constructor
  · intro h
    obtain ⟨r, hr, hl, hi⟩ := h1 fun c hc => Nat.lt_succ_of_le (h c hc)
    refine ⟨r, hr, hl, fun i hil => ?_⟩
    rw [hi i (by omega), List.getElem?_replicate, if_pos (by omega), lastAt]
    cases P.m.reverse.find? fun c => c.1 == i <;> rfl
  · rintro ⟨c, hc, h⟩
    exact h2 ⟨c, hc, h⟩

example : Poly.newSparse testRing [(2, 5#128), (0, 1#128), (2, 7#128)] = .ok [1#128, 0#128, 7#128] := by decide +kernel
example : Poly.newSparse testRing [(3, 5#128)] = panic := by decide +kernel

/-! ## C38 -/

open Spec

/-- C38: `key_gen` is the one-time key of RFC 8439 §2.6: the first 32 bytes of block 0. -/
theorem C38_key_gen (key iv : List U8) (hk : key.length = 32) (hi : iv.length = 12) :
    Hacspec.Poly1305.keyGen key iv = .ok ((ChaCha.blockFn key 0 iv).take 32) := by
  have hb := Hacspec.ChaCha.length_blockFn 0 hk hi
  rw [Hacspec.Poly1305.keyGen, C35_block key iv 0 hk hi, bind_ok,
    Hacspec.ChaCha.arrFromSubRange_ok (by omega) (by omega) (by omega), List.drop_zero]

/-- C38: `poly_mac` is the tag of C38 under that one-time key, and the tag of the RFC under the condition of
`C38_poly_rfc_partial`. -/
theorem C38_poly_mac (m key iv : List U8) (hk : key.length = 32) (hi : iv.length = 12) :
    Hacspec.Poly1305.polyMac m key iv =
      .ok (leBytes 16 ((Poly1305.acc (Poly1305.clampR ((ChaCha.blockFn key 0 iv).take 32)) m +
        Poly1305.keyS ((ChaCha.blockFn key 0 iv).take 32)) % Poly1305.p)) ∧
    (Hacspec.Poly1305.polyMac m key iv = .ok (Poly1305.mac ((ChaCha.blockFn key 0 iv).take 32) m) ↔
      Poly1305.acc (Poly1305.clampR ((ChaCha.blockFn key 0 iv).take 32)) m +
        Poly1305.keyS ((ChaCha.blockFn key 0 iv).take 32) < Poly1305.p) := by
  have hb := Hacspec.ChaCha.length_blockFn 0 hk hi
  have hl : ((ChaCha.blockFn key 0 iv).take 32).length = 32 := by rw [List.length_take, hb]; rfl
  have e : Hacspec.Poly1305.polyMac m key iv = Hacspec.Poly1305.poly m ((ChaCha.blockFn key 0 iv).take 32) := by
    rw [Hacspec.Poly1305.polyMac, C38_key_gen key iv hk hi, bind_ok]
  rw [e]
  exact ⟨C38_poly _ _ hl, C38_poly_rfc_partial _ _ hl⟩

example := C38_poly_mac [1, 2, 3] (List.replicate 32 1) (List.replicate 12 2) (by simp) (by simp)

/-- The key of the example of RFC 8439 §2.6.2. -/
example : (ChaCha.blockFn ((List.range 32).map fun i => BitVec.ofNat 8 (0x80 + i)) 0
    [0, 0, 0, 0, 0, 1, 2, 3, 4, 5, 6, 7]).take 32 =
    [0x8a, 0xd5, 0xa0, 0x8b, 0x90, 0x5f, 0x81, 0xcc, 0x81, 0x50, 0x40, 0x27, 0x4a, 0xb2, 0x94, 0x71,
     0xa8, 0x33, 0xb6, 0x37, 0xe3, 0xfd, 0x0d, 0xa5, 0x08, 0xdb, 0xb8, 0xe2, 0xfd, 0xd1, 0xa6, 0x46] := by
  decide +kernel

end Hacspec.Props
