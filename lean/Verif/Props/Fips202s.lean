import Verif.Lemmas.KeccakPerm
import Verif.Lemmas.Sponge

/-! # C48–C50: Keccak-f[1600], SHA-3 and SHAKE -/

namespace Hacspec.Props

open SecretInt Spec Hacspec.Seq
open Spec.Fips202 (bits laneBits toArray)

/-! ## C48 -/

theorem getD_laneBits (l : List U64) (i : Nat) : (laneBits l).getD i false = (l.getD (i / 64) 0).getLsbD (i % 64) := by
  induction l generalizing i with
  | nil => simp [laneBits]
  | cons x l ih =>
    rw [show laneBits (x :: l) = (List.range 64).map x.getLsbD ++ laneBits l from List.flatMap_cons ..]
    by_cases h : i < 64
    · rw [getD_append_lt (by simpa using h), Hacspec.Fips202.map_range_getD _ _ h, Nat.div_eq_of_lt h, Nat.mod_eq_of_lt h]
      rfl
    · rw [List.getD_eq_getElem?_getD, List.getElem?_append_right (by simpa using h), ← List.getD_eq_getElem?_getD]
      simp only [List.length_map, List.length_range]
      rw [ih, show i / 64 = (i - 64) / 64 + 1 by omega, show (i - 64) % 64 = i % 64 by omega]; rfl

theorem toArray_laneBits (s : List U64) : toArray (laneBits s) = Hacspec.Fips202.arr s := by
  funext x y z
  rw [toArray, getD_laneBits, Hacspec.Fips202.arr, show (64 * (5 * y.val + x.val) + z.val) / 64 = 5 * y.val + x.val by omega,
    show (64 * (5 * y.val + x.val) + z.val) % 64 = z.val by omega]

theorem strOf_laneBits {s : List U64} (hs : s.length = 25) : Hacspec.Fips202.strOf s = laneBits s := by
  have hl : (laneBits s).length = 1600 := by
    rw [laneBits, ChaCha.length_flatMap_const (n := 64) (by simp), hs]
  refine ChaCha.ext_getD false (by rw [Hacspec.Fips202.length_strOf, hl]) fun i hi => ?_
  rw [Hacspec.Fips202.length_strOf] at hi
  rw [Hacspec.Fips202.getD_strOf _ hi, getD_laneBits]

/-- `f` is defined on all states and computes the map `F` on state arrays. -/
def Computes (f : List U64 → M (List U64)) (F : Spec.Fips202.StateArray → Spec.Fips202.StateArray) : Prop :=
  ∀ s : List U64, s.length = 25 → ∃ t, f s = .ok t ∧ t.length = 25 ∧ toArray (laneBits t) = F (toArray (laneBits s))

theorem computes {f : List U64 → M (List U64)} {F : Spec.Fips202.StateArray → Spec.Fips202.StateArray}
    (h : Hacspec.Fips202.Refines f F) : Computes f F := by
  intro s hs
  obtain ⟨t, h1, h2, h3⟩ := h s hs
  exact ⟨t, h1, h2, by rw [toArray_laneBits, toArray_laneBits, h3]⟩

/-- **C48.**  The step mappings are those of FIPS 202, bit by bit, for every state. -/
theorem C48_theta : Computes Hacspec.Fips202.theta Spec.Fips202.theta := computes Hacspec.Fips202.theta_refines
theorem C48_rho : Computes Hacspec.Fips202.rho Spec.Fips202.rho := computes Hacspec.Fips202.rho_refines
theorem C48_pi : Computes Hacspec.Fips202.pi Spec.Fips202.pi := computes Hacspec.Fips202.pi_refines
theorem C48_chi : Computes Hacspec.Fips202.chi Spec.Fips202.chi := computes Hacspec.Fips202.chi_refines

/-- **C48.**  With the constant of round `i`, for each of the 24 rounds; the constants are generated by the shift register
of FIPS 202. -/
theorem C48_iota (i : Nat) (hi : i < 24) :
    ∃ c, Hacspec.Fips202.roundConstants[i]? = some c ∧
      Computes (fun s => Hacspec.Fips202.iota s c) (Spec.Fips202.iota i) := by
  refine ⟨_, List.getElem?_eq_getElem (by simpa [Hacspec.Fips202.roundConstants] using hi), ?_⟩
  have := computes (Hacspec.Fips202.iota_refines hi)
  rwa [List.getD_eq_getElem?_getD,
    List.getElem?_eq_getElem (show i < Hacspec.Fips202.roundConstants.length by simpa [Hacspec.Fips202.roundConstants] using hi)]
    at this

/-- **C48.**  `keccakf1600` is KECCAK-f[1600] on the string of the state, for every state. -/
theorem C48_keccakf (s : List U64) (hs : s.length = 25) :
    ∃ t, Hacspec.Fips202.keccakf1600 s = .ok t ∧ t.length = 25 ∧ laneBits t = Spec.Fips202.keccakf (laneBits s) := by
  obtain ⟨t, h1, h2, h3⟩ := Hacspec.Fips202.keccakf_ok hs
  exact ⟨t, h1, h2, by rw [← strOf_laneBits h2, ← strOf_laneBits hs, h3]⟩

/-- **C48.**  Each step mapping and the whole function permute the states. -/
theorem C48_permutation : Permutes 25 Hacspec.Fips202.keccakf1600 :=
  Hacspec.Fips202.keccakf_refines.permutes Hacspec.Fips202.rounds_inj

theorem C48_steps_permutation :
    Permutes 25 Hacspec.Fips202.theta ∧ Permutes 25 Hacspec.Fips202.rho ∧ Permutes 25 Hacspec.Fips202.pi ∧
      Permutes 25 Hacspec.Fips202.chi :=
  ⟨Hacspec.Fips202.theta_refines.permutes Hacspec.Fips202.theta_inj,
    Hacspec.Fips202.rho_refines.permutes Hacspec.Fips202.rho_inj,
    Hacspec.Fips202.pi_refines.permutes Hacspec.Fips202.pi_inj,
    Hacspec.Fips202.chi_refines.permutes Hacspec.Fips202.chi_inj⟩

/-- First lane of Keccak-f of the zero state. -/
example : (Hacspec.Fips202.keccakf1600 (List.replicate 25 0)).map (fun t => t.getD 0 0) = .ok 0xF1258F7940E1DDE7 := by
  decide +kernel

/-! ## C49 -/

/-- **C49.**  SHA3-224, SHA3-256, SHA3-384 and SHA3-512 are the functions of FIPS 202, for every message that a Rust vector
can hold. -/
theorem C49_sha3_224 (d : List U8) (hd : d.length < 2 ^ 63) :
    ∃ t, Hacspec.Fips202.sha3224 d = .ok t ∧ t.length = 28 ∧ bits t = Spec.Fips202.sha3 224 (bits d) := by
  obtain ⟨t, h1, h2, h3⟩ := Hacspec.Fips202.keccak_ok Hacspec.Fips202.suffix_sha3 (rate := 144) (by decide) (by decide) d
    (by omega) 28
  exact ⟨t, by rw [Hacspec.Fips202.sha3224, h1, bind_ok, arrFromSeq_ok h2], h2, h3⟩

theorem C49_sha3_256 (d : List U8) (hd : d.length < 2 ^ 63) :
    ∃ t, Hacspec.Fips202.sha3256 d = .ok t ∧ t.length = 32 ∧ bits t = Spec.Fips202.sha3 256 (bits d) := by
  obtain ⟨t, h1, h2, h3⟩ := Hacspec.Fips202.keccak_ok Hacspec.Fips202.suffix_sha3 (rate := 136) (by decide) (by decide) d
    (by omega) 32
  exact ⟨t, by rw [Hacspec.Fips202.sha3256, h1, bind_ok, arrFromSeq_ok h2], h2, h3⟩

theorem C49_sha3_384 (d : List U8) (hd : d.length < 2 ^ 63) :
    ∃ t, Hacspec.Fips202.sha3384 d = .ok t ∧ t.length = 48 ∧ bits t = Spec.Fips202.sha3 384 (bits d) := by
  obtain ⟨t, h1, h2, h3⟩ := Hacspec.Fips202.keccak_ok Hacspec.Fips202.suffix_sha3 (rate := 104) (by decide) (by decide) d
    (by omega) 48
  exact ⟨t, by rw [Hacspec.Fips202.sha3384, h1, bind_ok, arrFromSeq_ok h2], h2, h3⟩

theorem C49_sha3_512 (d : List U8) (hd : d.length < 2 ^ 63) :
    ∃ t, Hacspec.Fips202.sha3512 d = .ok t ∧ t.length = 64 ∧ bits t = Spec.Fips202.sha3 512 (bits d) := by
  obtain ⟨t, h1, h2, h3⟩ := Hacspec.Fips202.keccak_ok Hacspec.Fips202.suffix_sha3 (rate := 72) (by decide) (by decide) d
    (by omega) 64
  exact ⟨t, by rw [Hacspec.Fips202.sha3512, h1, bind_ok, arrFromSeq_ok h2], h2, h3⟩

/-- **C49.**  SHAKE128 and SHAKE256, for every message and every output length (in bytes). -/
theorem C49_shake128 (d : List U8) (hd : d.length < 2 ^ 63) (n : Nat) :
    ∃ t, Hacspec.Fips202.shake128 d n = .ok t ∧ t.length = n ∧ bits t = Spec.Fips202.shake128 (bits d) (8 * n) :=
  Hacspec.Fips202.keccak_ok Hacspec.Fips202.suffix_shake (rate := 168) (by decide) (by decide) d (by omega) n

theorem C49_shake256 (d : List U8) (hd : d.length < 2 ^ 63) (n : Nat) :
    ∃ t, Hacspec.Fips202.shake256 d n = .ok t ∧ t.length = n ∧ bits t = Spec.Fips202.shake256 (bits d) (8 * n) :=
  Hacspec.Fips202.keccak_ok Hacspec.Fips202.suffix_shake (rate := 136) (by decide) (by decide) d (by omega) n

/-- The bits determine the bytes, so the theorems above determine the result. -/
theorem C49_bits_injective (a b : List U8) (h : bits a = bits b) : a = b := Hacspec.Fips202.bits_inj h

/-- SHA3-256 of `abc`. -/
example : Hacspec.Fips202.sha3256 [0x61, 0x62, 0x63] =
    .ok [0x3a, 0x98, 0x5d, 0xa7, 0x4f, 0xe2, 0x25, 0xb2, 0x04, 0x5c, 0x17, 0x2d, 0x6b, 0xd3, 0x90, 0xbd,
      0x85, 0x5f, 0x08, 0x6e, 0x3e, 0x9d, 0x52, 0x5b, 0x46, 0xbf, 0xe2, 0x45, 0x11, 0x43, 0x15, 0x32] := by
  decide +kernel

/-- The corner cases of the padding: a message of `rate - 1` bytes, of one block and empty. -/
example : ∃ t, Hacspec.Fips202.sha3512 (List.replicate 71 7) = .ok t ∧ t.length = 64 ∧
    bits t = Spec.Fips202.sha3 512 (bits (List.replicate 71 7)) := C49_sha3_512 _ (by rw [List.length_replicate]; decide)

/-! ## C50 -/

/-- **C50.**  For one message, shorter outputs are prefixes of longer ones. -/
theorem C50_shake128 (d : List U8) (hd : d.length < 2 ^ 63) (n m : Nat) (h : n ≤ m) :
    ∃ t u, Hacspec.Fips202.shake128 d n = .ok t ∧ Hacspec.Fips202.shake128 d m = .ok u ∧ u.take n = t := by
  obtain ⟨t, h1, h2, h3⟩ := Hacspec.Fips202.keccak_prefix Hacspec.Fips202.suffix_shake (rate := 168) (by decide) (by decide) d
    (by omega) h
  exact ⟨t, h1, h2, h3⟩

theorem C50_shake256 (d : List U8) (hd : d.length < 2 ^ 63) (n m : Nat) (h : n ≤ m) :
    ∃ t u, Hacspec.Fips202.shake256 d n = .ok t ∧ Hacspec.Fips202.shake256 d m = .ok u ∧ u.take n = t := by
  obtain ⟨t, h1, h2, h3⟩ := Hacspec.Fips202.keccak_prefix Hacspec.Fips202.suffix_shake (rate := 136) (by decide) (by decide) d
    (by omega) h
  exact ⟨t, h1, h2, h3⟩

example : ∃ t u, Hacspec.Fips202.shake128 [1, 2, 3] 100 = .ok t ∧ Hacspec.Fips202.shake128 [1, 2, 3] 1000 = .ok u ∧
    u.take 100 = t := C50_shake128 [1, 2, 3] (by decide) 100 1000 (by decide)

end Hacspec.Props
