import Verif.Lemmas.Hmac
import Verif.Lemmas.Ideal.Nested
import Verif.Lemmas.Ideal.Sha
import Verif.Model.IdealHmac
import Verif.Spec.Macs

/-! # HMAC with a block cipher inside SHA-256 -/

namespace Hacspec.Hmac

open SecretInt Hacspec.Seq VecInt Spec

variable {hash : List U8 → M (List U8)} {H : List U8 → List U8}

theorem length_hmacKey_short {k : List U8} (hk : k.length ≤ 64) : (hmacKey H k).length = 64 := by
  rw [hmacKey, if_neg (by omega)]
  simp
  omega

theorem hmacWith_ok (hH : ∀ x, x.length < 2 ^ 61 → hash x = .ok (H x)) (hL : ∀ x, (H x).length = 32) {k m : List U8}
    (hk : k.length ≤ 64) (hm : 64 + m.length < 2 ^ 61) : hmacWith hash k m = .ok (Spec.hmac H k m) := by
  have hK : (hmacKey H k).length = 64 := length_hmacKey_short hk
  have hkb : keyBlockWith hash k = .ok (hmacKey H k) := by
    rw [keyBlockWith, hmacKey, if_neg (by omega), if_neg (by omega), updateStart_new (by omega)]
    rfl
  have hi : ((hmacKey H k).map (· ^^^ 0x36#8) ++ m).length < 2 ^ 61 := by simp [hK]; omega
  rw [hmacWith, arrFromPublicSlice_ok (by simp), bind_ok, arrFromPublicSlice_ok (by simp), bind_ok, hkb,
    bind_ok, arrXorSecret_ok hK (by simp), bind_ok, arrXorSecret_ok hK (by simp), bind_ok,
    zipWith_replicate _ hK, zipWith_replicate _ hK, blockThen_ok (by simp [hK]), bind_ok, hH _ hi, bind_ok,
    blockThen_ok (by simp [hK]), bind_ok]
  have ho : ((hmacKey H k).map (· ^^^ 0x5c#8) ++ H ((hmacKey H k).map (· ^^^ 0x36#8) ++ m)).length < 2 ^ 61 := by
    rw [List.length_append, List.length_map, hK, hL]; decide
  rw [hH _ ho, bind_ok, arrFromSeq_ok (hL _)]
  rfl

theorem hmacWith_hash : hmacWith Sha2.hash = hmac := by
  funext k m
  rfl

theorem hmacWith_congr {hash' : List U8 → M (List U8)} (hH : ∀ x, x.length < 2 ^ 61 → hash x = .ok (H x)) (hL : ∀ x, (H x).length = 32)
    (he : ∀ x, x.length < 2 ^ 61 → hash x = hash' x) {k m : List U8}
    (hk : k.length ≤ 64) (hm : 64 + m.length < 2 ^ 61) : hmacWith hash k m = hmacWith hash' k m := by
  rw [hmacWith_ok hH hL hk hm, hmacWith_ok (fun x hx => (he x hx).symm.trans (hH x hx)) hL hk hm]

end Hacspec.Hmac

namespace Hacspec.Ideal

open Spec Hacspec.Seq Hacspec.Sha2 Hacspec.Props

/-! ## The hash function -/

theorem exists_digest (s : Words 32 8) : ∃ d : Bytes 32, (do let x ← arrToBeBytes 8 s.1; arrFromSeq 32 x) = .ok d.1 := by
  obtain ⟨v, hv⟩ := exists_enc s.2
  exact ⟨⟨Sha256.digest v, rfl⟩, by rw [hv, digest_ok]⟩

/-- The result for a last state. -/
noncomputable def digestOf (s : Words 32 8) : Bytes 32 := (exists_digest s).choose

theorem digestOf_ok (s : Words 32 8) : (do let x ← arrToBeBytes 8 s.1; arrFromSeq 32 x) = .ok (digestOf s).1 := (exists_digest s).choose_spec

theorem digestOf_inj : Function.Injective digestOf := fun s t h => digest_inj (digestOf_ok s) (by rw [h]; exact digestOf_ok t)

theorem card_states : Fintype.card (Words 32 8) = 2 ^ 256 := by
  rw [card_words, ← Nat.pow_mul]

theorem digestOf_bij : Function.Bijective digestOf :=
  (Fintype.bijective_iff_injective_and_card _).mpr ⟨digestOf_inj, by rw [card_states, card_bytes]; decide +kernel⟩

/-- The hash function as a function of the last state. -/
noncomputable def hashOf (E : Bytes 64 → Equiv.Perm (Words 32 8)) (m : List U8) : List U8 :=
  (digestOf (iter addWords E (shaKeys m) shaStart)).1

theorem sha_hashOf (E : Bytes 64 → Equiv.Perm (Words 32 8)) (m : List U8) (hm : m.length < 2 ^ 61) : sha E m = .ok (hashOf E m) := by
  obtain ⟨t, h1, h2⟩ := chained_sha E (shaKeys m) shaStart
  rw [chained_dm] at h1
  injection h1 with h1
  rw [map_shaKeys] at h2
  rw [sha, hashWith_chain m hm, show initial = shaStart.1 from rfl, h2, bind_ok, ← h1]
  exact digestOf_ok _

theorem length_hashOf (E : Bytes 64 → Equiv.Perm (Words 32 8)) (m : List U8) : (hashOf E m).length = 32 := (digestOf _).2

/-! ## Blocks -/

/-- What is hashed after the block of the key. -/
def afterKey (m : List U8) : List U8 :=
  if m.length % 64 = 0 then m
  else m ++ [0x80#8] ++ List.replicate ((119 - m.length % 64) % 64) 0 ++ bytesBe64 (BitVec.ofNat 64 (8 * (64 + m.length)))

theorem length_afterKey (m : List U8) : (afterKey m).length % 64 = 0 := by
  rw [afterKey]
  split
  · assumption
  · simp only [bytesBe64, List.length_append, List.length_cons, List.length_nil, List.length_replicate]; omega

theorem length_afterKey_le {m : List U8} {ℓ : Nat} (h : m.length + 9 ≤ 64 * ℓ) : (afterKey m).length ≤ 64 * ℓ := by
  rw [afterKey]
  split
  · omega
  · simp only [bytesBe64, List.length_append, List.length_cons, List.length_nil, List.length_replicate]; omega

theorem shaBlocks_key {b : List U8} (hb : b.length = 64) (m : List U8) : shaBlocks (b ++ m) = b :: fullBlocks 64 (afterKey m) := by
  have hl : (b ++ m).length % 64 = m.length % 64 := by rw [List.length_append, hb]; omega
  rw [shaBlocks, afterKey, hl]
  by_cases h : m.length % 64 = 0
  · rw [if_pos h, if_pos h, fullBlocks_app (by omega), fullBlocks_one hb]; rfl
  · have e : Sha256.pad (b ++ m) =
        b ++ (m ++ [0x80#8] ++ List.replicate ((119 - m.length % 64) % 64) 0 ++ bytesBe64 (BitVec.ofNat 64 (8 * (64 + m.length)))) := by
      rw [Sha256.pad, hl, List.length_append, hb]
      simp only [List.append_assoc]
      rfl
    rw [if_neg h, if_neg h, e, fullBlocks_app (by omega), fullBlocks_one hb]; rfl

/-- The same with the lengths of the blocks. -/
def restKeys (m : List U8) : List (Bytes 64) := (shaKeys (List.replicate 64 0 ++ m)).tail

theorem map_restKeys (m : List U8) : (restKeys m).map Subtype.val = fullBlocks 64 (afterKey m) := by
  rw [restKeys, List.map_tail, map_shaKeys, shaBlocks_key (by simp)]
  rfl

theorem shaKeys_key (b : Bytes 64) (m : List U8) : shaKeys (b.1 ++ m) = b :: restKeys m := by
  refine List.map_injective_iff.mpr Subtype.val_injective ?_
  rw [map_shaKeys, shaBlocks_key b.2, List.map_cons, map_restKeys]

theorem length_restKeys {m : List U8} {ℓ : Nat} (h : m.length + 9 ≤ 64 * ℓ) : (restKeys m).length ≤ ℓ := by
  rw [← List.length_map (f := Subtype.val), map_restKeys, length_fullBlocks]
  have := length_afterKey_le h
  omega

theorem restKeys_inj {m m' : List U8} (hm : m.length + 64 < 2 ^ 61) (hm' : m'.length + 64 < 2 ^ 61)
    (hw : m.length % 64 = 0 ↔ m'.length % 64 = 0) (h : restKeys m = restKeys m') : m = m' := by
  have h := congrArg (fun l => (l.map Subtype.val).flatten) h
  simp only [map_restKeys] at h
  rw [flatten_fullBlocks _ _ (length_afterKey m), flatten_fullBlocks _ _ (length_afterKey m')] at h
  by_cases hz : m.length % 64 = 0
  · rwa [afterKey, if_pos hz, afterKey, if_pos (hw.mp hz)] at h
  · have hz' := fun h => hz (hw.mpr h)
    rw [afterKey, if_neg hz, afterKey, if_neg hz'] at h
    have e : ∀ m : List U8, Sha256.pad (List.replicate 64 0 ++ m) = List.replicate 64 0 ++
        (m ++ [0x80#8] ++ List.replicate ((119 - m.length % 64) % 64) 0 ++ bytesBe64 (BitVec.ofNat 64 (8 * (64 + m.length)))) := by
      intro m
      rw [Sha256.pad, List.length_append, List.length_replicate, Nat.add_mod_left]
      simp only [List.append_assoc]
      rfl
    have := C32_pad_injective_partial (List.replicate 64 0 ++ m) (List.replicate 64 0 ++ m')
      (by rw [List.length_append, List.length_replicate]; omega) (by rw [List.length_append, List.length_replicate]; omega)
      (by rw [e, e, h])
    exact List.append_cancel_left this

/-- The second block of the outer hash. -/
noncomputable def outerBlock (s : Words 32 8) : Bytes 64 :=
  ⟨(digestOf s).1 ++ ([0x80#8] ++ List.replicate 23 0 ++ bytesBe64 (BitVec.ofNat 64 768)), by
    rw [List.length_append, (digestOf s).2]; rfl⟩

theorem outerBlock_inj : Function.Injective outerBlock := by
  intro s t h
  have h := congrArg Subtype.val h
  exact digestOf_inj (Subtype.ext (List.append_inj_left h (by rw [(digestOf s).2, (digestOf t).2])))

theorem restKeys_digest (s : Words 32 8) : restKeys (digestOf s).1 = [outerBlock s] := by
  refine List.map_injective_iff.mpr Subtype.val_injective ?_
  have hd := (digestOf s).2
  have e : afterKey (digestOf s).1 = (outerBlock s).1 := by
    rw [afterKey, hd, if_neg (by decide), outerBlock]
    simp only [List.append_assoc]
  rw [map_restKeys, e, fullBlocks_one (outerBlock s).2]
  rfl

/-! ## Keys -/

/-- A key with zeros and a pad. -/
def padKey (c : U8) {n : Nat} (hn : n ≤ 64) (k : Bytes n) : Bytes 64 :=
  ⟨(k.1 ++ List.replicate (64 - k.1.length) 0).map (· ^^^ c), by
    rw [List.length_map, List.length_append, List.length_replicate, k.2]; omega⟩

theorem padKey_inj (c : U8) {n : Nat} (hn : n ≤ 64) : Function.Injective (padKey c hn) := by
  intro k k' h
  have h := congrArg Subtype.val h
  have h := List.map_injective_iff.mpr (fun a b (e : a ^^^ c = b ^^^ c) => (BitVec.xor_left_inj c).mp e) h
  exact Subtype.ext (List.append_inj_left h (by rw [k.2, k'.2]))

theorem padKey_ne {n : Nat} (hn : n ≤ 64) (k : Bytes n) : padKey 0x36#8 hn k ≠ padKey 0x5c#8 hn k := by
  intro h
  have h := congrArg (fun b : Bytes 64 => b.1[0]?) h
  simp only [padKey, List.getElem?_map] at h
  have hl : 0 < (k.1 ++ List.replicate (64 - k.1.length) (0 : U8)).length := by
    rw [List.length_append, List.length_replicate, k.2]; omega
  rw [List.getElem?_eq_getElem hl, Option.map_some, Option.map_some, Option.some_inj] at h
  revert h
  generalize (k.1 ++ List.replicate (64 - k.1.length) (0 : U8))[0] = x
  intro h
  have := (BitVec.xor_right_inj x).mp h
  revert this
  decide

/-! ## HMAC -/

theorem hmac_nested (E : Bytes 64 → Equiv.Perm (Words 32 8)) {n : Nat} (hn : n ≤ 64) (k : Bytes n) {m : List U8}
    (hm : 64 + m.length < 2 ^ 61) :
    hmac E k.1 m = .ok (digestOf (nested addWords (padKey 0x36#8 hn) (padKey 0x5c#8 hn) shaStart outerBlock restKeys E k m)).1 := by
  rw [hmac, Hmac.hmacWith_ok (sha_hashOf E) (length_hashOf E) (by rw [k.2]; exact hn) hm, Spec.hmac]
  have hk : hmacKey (hashOf E) k.1 = k.1 ++ List.replicate (64 - k.1.length) 0 := by
    rw [hmacKey, if_neg (by rw [k.2]; omega)]
  have h1 : hashOf E ((hmacKey (hashOf E) k.1).map (· ^^^ 0x36#8) ++ m) =
      (digestOf (iter addWords E (restKeys m) (addWords (E (padKey 0x36#8 hn k) shaStart) shaStart))).1 := by
    rw [hk]
    show hashOf E ((padKey 0x36#8 hn k).1 ++ m) = _
    rw [hashOf, shaKeys_key, iter]
  have h2 : ∀ s, hashOf E ((hmacKey (hashOf E) k.1).map (· ^^^ 0x5c#8) ++ (digestOf s).1) =
      (digestOf (iter addWords E [outerBlock s] (addWords (E (padKey 0x5c#8 hn k) shaStart) shaStart))).1 := by
    intro s
    rw [hk]
    show hashOf E ((padKey 0x5c#8 hn k).1 ++ (digestOf s).1) = _
    rw [hashOf, shaKeys_key, iter, restKeys_digest]
  rw [h1, h2]
  rfl

/-- Subtraction of states. -/
def subWords (v x : Words 32 8) : Words 32 8 := ⟨List.zipWith (· - ·) v.1 x.1, by rw [List.length_zipWith, v.2, x.2]; rfl⟩

theorem zipWith_sub_add {a b : List U32} (h : a.length = b.length) : List.zipWith (· + ·) (List.zipWith (· - ·) a b) b = a := by
  induction a generalizing b with
  | nil => rfl
  | cons x a ih =>
    cases b with
    | nil => cases h
    | cons y b =>
      rw [List.zipWith_cons_cons, List.zipWith_cons_cons, ih (Nat.succ.inj h), BitVec.sub_add_cancel]

theorem sub_add (v x : Words 32 8) : addWords (subWords v x) x = v :=
  Subtype.ext (zipWith_sub_add (v.2.trans x.2.symm))

/-! ## Programs with other answers -/

section Via

variable {Q R R' O : Type}

/-- The answers are translated. -/
def via (f : Q → R → R') : Prog Q R' O → Prog Q R O
  | .ret o => .ret o
  | .ask x k => .ask x fun r => via f (k (f x r))

theorem run_via (f : Q → R → R') (ev : Q → R) (p : Prog Q R' O) : (via f p).run ev = p.run fun x => f x (ev x) := by
  induction p with
  | ret o => rfl
  | ask x k ih => rw [via, Prog.run, ih]; rfl

theorem via_counts {P : Type} (f : Q ⊕ P → R → R') {p : Prog (Q ⊕ P) R' O} {q n : Nat} (hp : p.Counts q n) : (via f p).Counts q n := by
  induction p generalizing q n with
  | ret o => trivial
  | ask x k ih =>
    cases x with
    | inl x =>
      obtain ⟨q, rfl, h⟩ := hp
      exact ⟨q, rfl, fun r => ih _ (h _)⟩
    | inr x =>
      obtain ⟨n, rfl, h⟩ := hp
      exact ⟨n, rfl, fun r => ih _ (h _)⟩

end Via

end Hacspec.Ideal
