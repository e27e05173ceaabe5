import Verif.Lemmas.Release.Exact
import Verif.Lemmas.Release.Sha2
import Verif.Lemmas.Hmac

/-! # Arguments that only the release build accepts -/

namespace Hacspec.Release.Hkdf

open Spec (hkdfT hkdfExpand)
open Hacspec.Hmac (HashFun)
open Hacspec.Hkdf (divCeil32 divCeil32_eq expand_loop length_flatten_T)
open Hacspec.Seq (new)
open Release.Seq

theorem loop_ok {H : List U8 → List U8} (hH : HashFun H) {prk info : List U8} (hk : prk.length < 2 ^ 61)
    (hm : 97 + info.length < 2 ^ 61) (n : Nat) :
    ∃ t, loop n (expandStep prk info) ((new 32 : List U8), (new (n * 32) : List U8)) =
      .ok (t, ((List.range n).map fun i => hkdfT H prk info (i + 1)).flatten) := by
  obtain ⟨t, h⟩ := expand_loop hH hk hm n
  exact ⟨t, Keeps.loop (fun i _ st => expandStep_keeps) _ h⟩

theorem expand_ok {H : List U8 → List U8} (hH : HashFun H) {prk info : List U8} (hk : prk.length < 2 ^ 61)
    (hm : 97 + info.length < 2 ^ 61) {l : Nat} (hl : l ≤ 8160) :
    expand prk info l = .ok (hkdfExpand H prk info l) := by
  rw [expand, divCeil32_eq (by omega), Nat.mod_eq_of_lt (by omega), hkdfExpand]
  generalize hn : (l + 31) / 32 = n
  obtain ⟨t, h⟩ := loop_ok hH hk hm n
  rw [h, bind_ok, sub, fromSub_ok (by rw [length_flatten_T hH hk hm]; omega)]
  rfl

theorem expand_panic {H : List U8 → List U8} (hH : HashFun H) {prk info : List U8} (hk : prk.length < 2 ^ 61)
    (hm : 97 + info.length < 2 ^ 61) {l : Nat} (hl : 8160 < l) : expand prk info l = panic := by
  rw [expand]
  have hn : divCeil32 l % 256 < 256 := Nat.mod_lt _ (by decide)
  generalize divCeil32 l % 256 = n at hn
  obtain ⟨t, h⟩ := loop_ok hH hk hm n
  rw [h, bind_ok, sub, fromSub_panic (by rw [length_flatten_T hH hk hm]; omega)]

end Hacspec.Release.Hkdf

namespace Hacspec.Release.Sha2

open Spec (bytesBe64)
open Spec.Sha256 (Vars)
open Hacspec.Sha2 (enc initial initial_eq digest_ok hash_full iterate_append)
open Hacspec.Seq (new arrToBeBytes)
open Release.Seq

/-- The length in bits is kept modulo `2^64`. -/
theorem bits_mod (n : Nat) : BitVec.ofNat 64 (n * 8) = BitVec.ofNat 64 (n % 2 ^ 61 * 8) := by
  apply BitVec.eq_of_toNat_eq
  simp only [BitVec.toNat_ofNat]
  omega

theorem lastBlock_ok {n : Nat} {b : List U8} (v : Vars) (hb : b.length < 64) :
    lastBlock n b.length b (enc v) =
      .ok (enc (Spec.Sha256.iterate v (b ++ [0x80#8] ++ List.replicate ((119 - b.length) % 64) 0 ++
        bytesBe64 (BitVec.ofNat 64 (8 * n))))) := by
  have h : lastBlock n b.length b (enc v) = lastBlock (n % 2 ^ 61) b.length b (enc v) := by
    simp only [lastBlock, bits_mod n]
  rw [h, Nat.mul_comm 8 n, bits_mod n, Nat.mul_comm _ 8]
  exact lastBlock_keeps _ (Hacspec.Sha2.lastBlock_ok v hb (by omega))

theorem hash_ok {m : List U8} (h : m.length % 64 ≠ 0) (hu : m.length < 2 ^ 63) :
    hash m = .ok (Spec.Sha256.sha256 m) := by
  have h1 : arrFromPublicSlice 8 initial = .ok initial :=
    arrFromPublicSlice_keeps _ (Hacspec.arrFromPublicSlice_ok (by rfl))
  have h2 : numChunks m 64 = .ok ((m.length + 64 - 1) / 64) :=
    numChunks_keeps _ (Hacspec.Seq.numChunks_ok (by omega) (by omega))
  have h3 := Keeps.loop (fun i _ t => hashStep_keeps (i := i) (h := t) (by omega)) _
    (hash_full (m := m) Spec.Sha256.initial (q := m.length / 64) (by omega))
  have h4 : getChunk m 64 (m.length / 64) = .ok _ :=
    getChunk_keeps (by omega) _ (Hacspec.Seq.getChunk_ok (by omega))
  rw [hash, h1, bind_ok, h2, bind_ok, show (m.length + 64 - 1) / 64 = m.length / 64 + 1 by omega, initial_eq, loop_succ,
    h3, bind_ok, hashStep, h4, bind_ok]
  have hb : ((m.drop (64 * (m.length / 64))).take 64).length = m.length % 64 := by simp; omega
  have hm : min 64 (m.length - 64 * (m.length / 64)) = ((m.drop (64 * (m.length / 64))).take 64).length := by
    rw [hb]; omega
  simp only [hm]
  have hd : ∀ v, (do let d ← arrToBeBytes 8 (enc v); arrFromSeq 32 d) = .ok (Spec.Sha256.digest v) := fun v =>
    Keeps.bind Keeps.refl (fun _ _ => arrFromSeq_keeps) _ (digest_ok v)
  rw [if_pos (by omega), lastBlock_ok _ (by omega), bind_ok, hd, ← iterate_append _ (by simp; omega),
    Spec.Sha256.sha256, Spec.Sha256.pad, hb]
  congr 3
  have : m.take (64 * (m.length / 64)) ++ (m.drop (64 * (m.length / 64))).take 64 = m := by
    rw [List.take_of_length_le (l := m.drop _) (by rw [List.length_drop]; omega), List.take_append_drop]
  simp only [← List.append_assoc]
  rw [this]
  rfl

end Hacspec.Release.Sha2
