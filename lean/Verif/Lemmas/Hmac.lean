import Verif.Lemmas.Sha2
import Verif.Lemmas.VecInt
import Verif.Model.Hmac
import Verif.Spec.Hmac

/-! # HMAC and HKDF: the model refines the RFCs -/

namespace Hacspec.Hmac

open SecretInt Hacspec.Seq VecInt Spec

/-- The function computed by `hash` on the strings for which it does not panic. -/
structure HashFun (H : List U8 → List U8) : Prop where
  hash : ∀ x, x.length < 2 ^ 61 → Sha2.hash x = .ok (H x)

theorem length_digest (v : Sha256.Vars) : (Sha256.digest v).length = 32 := rfl

theorem HashFun.length {H : List U8 → List U8} (hH : HashFun H) {x : List U8} (hx : x.length < 2 ^ 61) :
    (H x).length = 32 := by
  have h := hH.hash x hx
  by_cases h64 : x.length % 64 = 0
  · rw [Sha2.hash_blocks h64 (by omega)] at h
    injection h with h; rw [← h]; rfl
  · rw [Sha2.hash_partial_block h64 hx] at h
    injection h with h; rw [← h]; rfl

theorem keyBlock_ok {H : List U8 → List U8} (hH : HashFun H) {k : List U8} (hk : k.length < 2 ^ 61) :
    keyBlock k = .ok (hmacKey H k) := by
  rw [keyBlock, hmacKey]
  by_cases h : 64 < k.length
  · rw [if_pos h, if_pos h, hH.hash k hk, bind_ok, updateStart_new (by rw [hH.length hk]; omega)]; rfl
  · rw [if_neg h, if_neg h, updateStart_new (by omega)]; rfl

theorem length_hmacKey {H : List U8 → List U8} (hH : HashFun H) {k : List U8} (hk : k.length < 2 ^ 61) :
    (hmacKey H k).length = 64 := by
  rw [hmacKey]
  by_cases h : 64 < k.length
  · simp [if_pos h, hH.length hk]
  · simp [if_neg h]; omega

theorem blockThen_ok {b txt : List U8} (hb : b.length = 64) : blockThen b txt = .ok (b ++ txt) := by
  rw [blockThen, update_ok (by rw [length_new]; omega), bind_ok]
  simp only [Nat.zero_add, List.take_zero, List.nil_append]
  have hl : (b ++ List.drop b.length (new (64 + txt.length))).length = 64 + txt.length := by
    rw [List.length_append, List.length_drop, length_new]; omega
  rw [update_ok (by omega), List.drop_of_length_le (l := b ++ _) (by omega), List.append_nil,
    List.take_append_of_le_length (by omega), List.take_of_length_le (by omega)]

theorem zipWith_replicate {n : Nat} {l : List U8} (c : U8) (h : l.length = n) :
    List.zipWith (· ^^^ ·) l (List.replicate n c) = l.map (· ^^^ c) := by
  induction l generalizing n with
  | nil => simp
  | cons a l ih =>
    subst h
    simp only [List.length_cons, List.replicate_succ, List.zipWith_cons_cons, List.map_cons]
    rw [ih rfl]

theorem hmac_ok {H : List U8 → List U8} (hH : HashFun H) {k m : List U8} (hk : k.length < 2 ^ 61)
    (hm : 64 + m.length < 2 ^ 61) : hmac k m = .ok (Spec.hmac H k m) := by
  have hK := length_hmacKey hH hk
  have hi : ((hmacKey H k).map (· ^^^ 0x36#8) ++ m).length < 2 ^ 61 := by simp [hK]; omega
  rw [hmac, arrFromPublicSlice_ok (by simp), bind_ok, arrFromPublicSlice_ok (by simp), bind_ok, keyBlock_ok hH hk,
    bind_ok, arrXorSecret_ok hK (by simp), bind_ok, arrXorSecret_ok hK (by simp), bind_ok,
    zipWith_replicate _ hK, zipWith_replicate _ hK, blockThen_ok (by simp [hK]), bind_ok, hH.hash _ hi, bind_ok,
    blockThen_ok (by simp [hK]), bind_ok]
  have ho : ((hmacKey H k).map (· ^^^ 0x5c#8) ++ H ((hmacKey H k).map (· ^^^ 0x36#8) ++ m)).length < 2 ^ 61 := by
    rw [List.length_append, List.length_map, hK, hH.length hi]; decide
  rw [hH.hash _ ho, bind_ok, arrFromSeq_ok (hH.length ho)]
  rfl

theorem length_hmac {H : List U8 → List U8} (hH : HashFun H) {k m : List U8} (hk : k.length < 2 ^ 61)
    (hm : 64 + m.length < 2 ^ 61) : (Spec.hmac H k m).length = 32 := by
  have hK := length_hmacKey hH hk
  have hi : ((hmacKey H k).map (· ^^^ 0x36#8) ++ m).length < 2 ^ 61 := by simp [hK]; omega
  exact hH.length (by rw [List.length_append, List.length_map, hK, hH.length hi]; decide)

end Hacspec.Hmac

namespace Hacspec.Hkdf

open SecretInt Hacspec.Seq VecInt Spec Hmac

theorem extract_ok {H : List U8 → List U8} (hH : HashFun H) {salt ikm : List U8} (hk : salt.length < 2 ^ 61)
    (hm : 64 + ikm.length < 2 ^ 61) : extract salt ikm = .ok (hkdfExtract H salt ikm) := by
  rw [extract, hkdfExtract, saltOrZero]
  by_cases h : salt = []
  · subst h
    simp only [List.length_nil, Nat.lt_irrefl, if_false, if_true]
    rw [bind_ok, hmac_ok hH (by rw [length_new]; decide) hm, bind_ok,
      arrFromSeq_ok (length_hmac hH (by rw [length_new]; decide) hm)]
    rfl
  · rw [if_pos (List.length_pos_iff.mpr h), if_neg h, fromSeq_ok, bind_ok, hmac_ok hH hk hm, bind_ok,
      arrFromSeq_ok (length_hmac hH hk hm)]

theorem buildHmacTxt_ok (t info : List U8) (b : U8) : buildHmacTxt t info b = .ok (t ++ info ++ [b]) := by
  rw [buildHmacTxt, update_ok (by rw [length_new]; omega), bind_ok, update_ok (by simp [length_new]; omega), bind_ok,
    setIdx_ok (by simp [length_new])]
  congr 1
  simp only [Nat.zero_add, List.take_zero, List.nil_append]
  rw [List.take_append_of_le_length (by omega), List.take_of_length_le (by omega), List.drop_append,
    List.drop_of_length_le (by omega), List.nil_append, List.drop_drop, set_append_ge (by simp)]
  rw [show t.length + (t.length + info.length - t.length) = t.length + info.length by omega, new, List.drop_replicate,
    show t.length + info.length + 1 - (t.length + info.length) = 1 by omega]
  simp

theorem f64OfNat_ge {a : Nat} (h : 2 ^ 53 ≤ a) : 2 ^ 52 ≤ f64OfNat a := by
  rw [f64OfNat, if_neg (by omega)]
  simp only
  have hl : 53 ≤ a.log2 := (Nat.le_log2 (by omega)).mpr h
  have hq : 2 ^ 52 ≤ a / 2 ^ (a.log2 - 52) := by
    rw [Nat.le_div_iff_mul_le (Nat.two_pow_pos _), ← Nat.pow_add]
    rw [show 52 + (a.log2 - 52) = a.log2 by omega]
    exact Nat.log2_self_le (by omega)
  have hp : 1 ≤ 2 ^ (a.log2 - 52) := Nat.two_pow_pos _
  split
  · exact Nat.le_trans (by omega : 2 ^ 52 ≤ a / 2 ^ (a.log2 - 52) + 1) (Nat.le_mul_of_pos_right _ hp)
  · exact Nat.le_trans hq (Nat.le_mul_of_pos_right _ hp)

theorem divCeil32_lt {l : Nat} : divCeil32 l < 255 ↔ l ≤ 8128 := by
  rw [divCeil32]
  by_cases h : l < 2 ^ 53
  · rw [f64OfNat, if_pos h]; omega
  · have := f64OfNat_ge (a := l) (by omega); omega

theorem divCeil32_eq {l : Nat} (h : l < 2 ^ 53) : divCeil32 l = (l + 31) / 32 := by
  rw [divCeil32, f64OfNat, if_pos h]

theorem length_hkdfT {H : List U8 → List U8} (hH : HashFun H) {prk info : List U8} (hk : prk.length < 2 ^ 61)
    (hm : 97 + info.length < 2 ^ 61) (i : Nat) : (hkdfT H prk info (i + 1)).length = 32 := by
  induction i with
  | zero => rw [hkdfT]; exact length_hmac hH hk (by simp [hkdfT]; omega)
  | succ i ih => rw [hkdfT]; exact length_hmac hH hk (by simp [ih]; omega)

theorem expandStep_ok {H : List U8 → List U8} (hH : HashFun H) {prk info : List U8} (hk : prk.length < 2 ^ 61)
    (hm : 97 + info.length < 2 ^ 61) {i : Nat} {t z : List U8} (h0 : i ≠ 0 → t = hkdfT H prk info i)
    (hz : i * 32 + 32 ≤ z.length) :
    expandStep prk info i (t, z) =
      .ok (hkdfT H prk info (i + 1), z.take (i * 32) ++ hkdfT H prk info (i + 1) ++ z.drop (i * 32 + 32)) := by
  have htxt : hmacTxtIn info t i = .ok (hkdfT H prk info i ++ info ++ [BitVec.ofNat 8 (i + 1)]) := by
    rw [hmacTxtIn]
    by_cases h : i = 0
    · subst h; rw [if_pos rfl, buildHmacTxt_ok]; rfl
    · rw [if_neg h, fromSeq_ok, bind_ok, buildHmacTxt_ok, h0 h]
  have hl : (hkdfT H prk info i).length ≤ 32 := by
    cases i with
    | zero => simp [hkdfT]
    | succ i => exact Nat.le_of_eq (length_hkdfT hH hk hm i)
  have h32 := length_hkdfT hH hk hm i
  rw [expandStep, htxt, bind_ok, hmac_ok hH hk (by simp; omega), bind_ok]
  show (do let t ← update z (i * (hkdfT H prk info (i + 1)).length) (hkdfT H prk info (i + 1)); _) = _
  rw [h32, update_ok (by omega), bind_ok, h32]
  rfl

theorem length_flatten_T {H : List U8 → List U8} (hH : HashFun H) {prk info : List U8} (hk : prk.length < 2 ^ 61)
    (hm : 97 + info.length < 2 ^ 61) (n : Nat) :
    (((List.range n).map fun i => hkdfT H prk info (i + 1)).flatten).length = n * 32 := by
  induction n with
  | zero => rfl
  | succ n ih =>
    rw [List.range_succ, List.map_append, List.flatten_append, List.length_append, ih]
    simp [length_hkdfT hH hk hm]; omega

/-- The loop of `expand`, for any number of iterations. -/
theorem expand_loop {H : List U8 → List U8} (hH : HashFun H) {prk info : List U8} (hk : prk.length < 2 ^ 61)
    (hm : 97 + info.length < 2 ^ 61) (n : Nat) :
    ∃ t, loop n (expandStep prk info) ((new 32 : List U8), (new (n * 32) : List U8)) =
      .ok (t, ((List.range n).map fun i => hkdfT H prk info (i + 1)).flatten) := by
  obtain ⟨st, h1, -, h2⟩ := loop_inv (s := ((new 32 : List U8), (new (n * 32) : List U8))) (n := n)
    (body := expandStep prk info)
    (fun i st => (i ≠ 0 → st.1 = hkdfT H prk info i) ∧
      st.2 = ((List.range i).map fun i => hkdfT H prk info (i + 1)).flatten ++ List.replicate ((n - i) * 32) default)
    ⟨fun h => absurd rfl h, by simp [new]⟩
    (by
      rintro i hi ⟨t, z⟩ ⟨ht, hz⟩
      simp only at ht hz
      have hf := length_flatten_T hH hk hm i
      have hzl : z.length = n * 32 := by
        rw [hz, List.length_append, hf, List.length_replicate, ← Nat.add_mul]; congr 1; omega
      refine ⟨_, expandStep_ok hH hk hm ht (by rw [hzl]; omega), fun _ => rfl, ?_⟩
      simp only
      rw [hz, List.take_append_of_le_length (by omega), List.take_of_length_le (by omega), List.drop_append,
        List.drop_of_length_le (by omega), hf, List.nil_append, List.drop_replicate, List.range_succ, List.map_append,
        List.flatten_append]
      rw [show (n - i) * 32 - (i * 32 + 32 - i * 32) = (n - (i + 1)) * 32 by omega]
      simp)
  rw [Nat.sub_self, Nat.zero_mul, List.replicate_zero, List.append_nil] at h2
  exact ⟨st.1, by rw [h1, ← h2]⟩

theorem expand_ok {H : List U8 → List U8} (hH : HashFun H) {prk info : List U8} (hk : prk.length < 2 ^ 61)
    (hm : 97 + info.length < 2 ^ 61) {l : Nat} (hl : l ≤ 8128) :
    expand prk info l = .ok (hkdfExpand H prk info l) := by
  rw [expand]
  rw [require_true (divCeil32_lt.mpr hl), bind_ok, divCeil32_eq (by omega), hkdfExpand]
  generalize hn : (l + 31) / 32 = n
  obtain ⟨t, h⟩ := expand_loop hH hk hm n
  rw [h, bind_ok, sub_ok (by rw [length_flatten_T hH hk hm]; omega)]
  rfl

theorem expand_panic {prk info : List U8} {l : Nat} (hl : 8128 < l) : expand prk info l = panic := by
  rw [expand]
  rw [require_false (fun h => by have := divCeil32_lt.mp h; omega)]
  rfl

end Hacspec.Hkdf
