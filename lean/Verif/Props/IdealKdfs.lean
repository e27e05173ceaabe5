import Verif.Lemmas.Ideal.Hkdf
import Verif.Props.IdealMacs

/-! # C114: HKDF-Expand with a random block cipher inside SHA-256 -/

namespace Hacspec.Props

open Spec Hacspec.Ideal Finset

/-- **C114.**  `schedule` and `shuffle` are one of these ciphers: with it, the attacked function is `expand`. -/
theorem C114_code : ∃ E : Bytes 64 → Equiv.Perm (Words 32 8),
    (∀ b s, (Hacspec.Sha2.schedule b.1 >>= fun ws => Hacspec.Sha2.shuffle ws s.1) = .ok (E b s).1) ∧
    ∀ (prk info : List U8) (l : Nat), prk.length ≤ 64 → 97 + info.length < 2 ^ 61 → l ≤ 8128 →
      Hacspec.Ideal.expand E prk info l = Hacspec.Hkdf.expand prk info l := by
  obtain ⟨E, h1, h2⟩ := C109_code
  refine ⟨E, h1, fun prk info l hk hi hl => ?_⟩
  rw [← Hacspec.Hkdf.expandWith_hash, Hacspec.Ideal.expand, Hacspec.Hkdf.expandWith_ok (sha_hashOf E) (length_hashOf E) hk hi hl,
    Hacspec.Hkdf.expandWith_ok (fun x hx => (h2 x hx).symm.trans (sha_hashOf E x hx)) (length_hashOf E) hk hi hl]

theorem take_blocks {f : Nat → List U8} (hf : ∀ i, (f i).length = 32) {c N l : Nat} (hc : c ≤ N) (hl : l ≤ 32 * c) :
    (((List.range N).map f).flatten).take l = (((List.range c).map f).flatten).take l := by
  obtain ⟨d, rfl⟩ := Nat.exists_eq_add_of_le hc
  have hlen : (((List.range c).map f).flatten).length = 32 * c := by
    clear hl hc
    induction c with
    | zero => rfl
    | succ c ih =>
      rw [List.range_succ, List.map_append, List.flatten_append, List.length_append, ih]
      simp [hf]; omega
  rw [List.range_add, List.map_append, List.flatten_append, List.take_append_of_le_length (by omega)]

theorem hkdfT_block {n ℓ : Nat} (hn : n ≤ 64) (hℓ : ℓ < 2 ^ 54) (ω : (Bytes 64 → Equiv.Perm (Words 32 8)) × Bytes n) (info : Infos ℓ) (i : Nat) :
    hkdfT (hashOf ω.1) ω.2.1 info.1 (i + 1) = (kdfBlock (fun z => hmacState hn false ℓ ω (.inr z)) info i).1 := by
  have key : ∀ m : List U8, 64 + m.length < 2 ^ 61 → Spec.hmac (hashOf ω.1) ω.2.1 m = (digestOf (nested addWords
      (padKey 0x36#8 hn) (padKey 0x5c#8 hn) shaStart outerBlock restKeys ω.1 ω.2 m)).1 := by
    intro m hm
    have h := Hacspec.Hmac.hmacWith_ok (sha_hashOf ω.1) (length_hashOf ω.1) (k := ω.2.1) (by rw [ω.2.2]; exact hn) hm
    exact Except.ok.inj (h.symm.trans (hmac_nested ω.1 hn ω.2 hm))
  have hi := info.2.1
  have prev : ∀ i, hkdfT (hashOf ω.1) ω.2.1 info.1 i ++ info.1 ++ [BitVec.ofNat 8 (i + 1)] =
      (kdfText info i (kdfPrev (fun z => hmacState hn false ℓ ω (.inr z)) info i)).1 := by
    intro i
    induction i with
    | zero => rfl
    | succ i ih =>
      have hl := (kdfText info i (kdfPrev (fun z => hmacState hn false ℓ ω (.inr z)) info i)).2.1
      rw [hkdfT, ih, key _ (by omega)]
      rfl
  have hl := (kdfText info i (kdfPrev (fun z => hmacState hn false ℓ ω (.inr z)) info i)).2.1
  rw [hkdfT, prev, key _ (by omega)]
  rfl

theorem expand_blocks {n ℓ N : Nat} (hn : n ≤ 64) (hN : N ≤ 254) (hℓ : ℓ < 2 ^ 54) (ω : (Bytes 64 → Equiv.Perm (Words 32 8)) × Bytes n)
    (x : Wanted ℓ N) : Sum.inr (Hacspec.Ideal.expand ω.1 ω.2.1 x.1.1 x.2.1) =
      kdfEv (hmacState hn false ℓ ω) (.inr x) := by
  have hi := x.1.2.1
  have hl := x.2.2
  rw [Hacspec.Ideal.expand, Hacspec.Hkdf.expandWith_ok (sha_hashOf ω.1) (length_hashOf ω.1) (by rw [ω.2.2]; exact hn) (by omega) (by omega),
    hkdfExpand, kdfEv, kdfAnswer, List.map_map,
    take_blocks (f := Subtype.val ∘ kdfBlock (fun z => hmacState hn false ℓ ω (.inr z)) x.1) (c := (x.2.1 + 31) / 32)
      (fun i => (kdfBlock (fun z => hmacState hn false ℓ ω (.inr z)) x.1 i).2) (by omega) (by omega)]
  have e : (fun i => hkdfT (hashOf ω.1) ω.2.1 x.1.1 (i + 1)) = Subtype.val ∘ kdfBlock (fun z => hmacState hn false ℓ ω (.inr z)) x.1 :=
    funext fun i => hkdfT_block hn hℓ ω x.1 i
  rw [e]

theorem share_ideal_blocks {ℓ N : Nat} (hN : N ≤ 254) {O : Type} (p : KdfAttack ℓ N O) (acc : O → Prop) :
    share (fun ω : (Bytes 64 → Equiv.Perm (Words 32 8)) × (Texts false ℓ → Words 32 8) => acc ((kdfCompile p).run (evIdeal ω))) =
      share (fun ω : (Bytes 64 → Equiv.Perm (Words 32 8)) × (Infos ℓ × Fin N → Bytes 32) =>
        acc (p.run (macAnswer ω.1 fun x => .ok (randomBytes ω.2 x)))) := by
  rw [share_prod, share_prod]
  congr 1
  refine Finset.sum_congr rfl fun E _ => ?_
  rw [← share_kdfPlant (N := N) (by omega)]
  have h1 := share_snd (A := Texts false ℓ → Words 32 8) (fun G : Infos ℓ × Fin N → Words 32 8 =>
    acc (p.run (macAnswer E fun x => .ok (randomBytes (fun y => digestOf (G y)) x))))
  have h2 := share_equiv (Equiv.arrowCongr (Equiv.refl (Infos ℓ × Fin N)) (Equiv.ofBijective digestOf digestOf_bij))
    (fun F : Infos ℓ × Fin N → Bytes 32 => acc (p.run (macAnswer E fun x => .ok (randomBytes F x))))
  refine Eq.trans (share_congr fun ω => ?_) (h1.trans h2)
  rw [run_kdfCompile]
  have e : kdfEv (evIdeal (E, kdfPlant ω.1 ω.2)) =
      macAnswer E fun x : Wanted ℓ N => .ok (randomBytes (fun y => digestOf (ω.2 y)) x) := by
    funext x
    cases x with
    | inl d => rfl
    | inr x =>
      rw [kdfEv, kdfAnswer, macAnswer, randomBytes, List.map_map, ← List.map_coe_finRange_eq_range, List.map_map]
      have e : (Subtype.val ∘ kdfBlock (fun z => evIdeal (E, kdfPlant ω.1 ω.2) (.inr z)) x.1) ∘ (fun i : Fin N => i.1) =
          fun i => (digestOf (ω.2 (x.1, i))).1 :=
        funext fun i => congrArg Subtype.val (kdfPlant_block (by omega) ω.1 ω.2 x.1 i)
      rw [e]
  rw [e]

theorem expand_le {ℓ n N : Nat} (hn : n ≤ 64) (hN : N ≤ 254) (hℓ : ℓ < 2 ^ 54) {O : Type} {p : KdfAttack ℓ N O} {q a : Nat}
    (hp : p.Counts q a) (hT : q + a * N * ℓ < 2 ^ 256) (acc : O → Prop) :
    share (fun ω : (Bytes 64 → Equiv.Perm (Words 32 8)) × Bytes n =>
        acc (p.run (macAnswer ω.1 fun x => Hacspec.Ideal.expand ω.1 ω.2.1 x.1.1 x.2.1))) ≤
      share (fun ω : (Bytes 64 → Equiv.Perm (Words 32 8)) × (Infos ℓ × Fin N → Bytes 32) =>
        acc (p.run (macAnswer ω.1 fun x => .ok (randomBytes ω.2 x)))) + prfBound n (q + a * N * ℓ) (a * N) := by
  rw [← share_ideal_blocks hN]
  refine le_trans (le_of_eq (share_congr fun ω => ?_)) (hmac_state_le hn hℓ (kdfCompile_counts hp) hT acc)
  rw [run_kdfCompile]
  have e : (macAnswer ω.1 fun x : Wanted ℓ N => Hacspec.Ideal.expand ω.1 ω.2.1 x.1.1 x.2.1) = kdfEv (hmacState hn false ℓ ω) := by
    funext x
    cases x with
    | inl d => rfl
    | inr x => exact expand_blocks hn hN hℓ ω x
  rw [e]

/-- **C114.**  Derived keys are like random strings: whoever asks the cipher `q` times and for `a` keys of at most `32 N` bytes, with
strings `info` whose length is not 31 more than a multiple of 32, decides for the code with a random pseudorandom key of `n` bytes and a
random cipher as often as for random bytes for each string, up to `prfBound`. -/
theorem C114_prf {ℓ n N : Nat} (hn : n ≤ 64) (hN : N ≤ 254) (hℓ : ℓ < 2 ^ 54) {O : Type} (p : KdfAttack ℓ N O) (q a : Nat)
    (hp : p.Counts q a) (hT : q + a * N * ℓ < 2 ^ 256) (acc : O → Prop) :
    |share (fun ω : (Bytes 64 → Equiv.Perm (Words 32 8)) × Bytes n =>
        acc (p.run (macAnswer ω.1 fun x => Hacspec.Ideal.expand ω.1 ω.2.1 x.1.1 x.2.1))) -
      share (fun ω : (Bytes 64 → Equiv.Perm (Words 32 8)) × (Infos ℓ × Fin N → Bytes 32) =>
        acc (p.run (macAnswer ω.1 fun x => .ok (randomBytes ω.2 x))))| ≤ prfBound n (q + a * N * ℓ) (a * N) := by
  have h1 := expand_le hn hN hℓ hp hT acc
  have h2 := expand_le hn hN hℓ hp hT fun o => ¬ acc o
  rw [share_sub, share_sub] at h2
  rw [abs_le]
  constructor <;> linarith

/-- An attack that asks for 42 bytes and uses them as the next string. -/
def kdfAttack : KdfAttack 2 3 Bool :=
  .ask (.inr (⟨[1], by decide, by decide⟩, ⟨42, by decide⟩)) fun t =>
    .ask (.inr (⟨match t with | .inr (.ok d) => d.take 20 | _ => [], by
      constructor
      · split
        · rw [List.length_take]; omega
        · decide
      · split
        · rw [List.length_take]; omega
        · decide⟩, ⟨96, by decide⟩)) fun t' =>
      .ret (match t' with | .inr (.ok d) => d.length = 96 | _ => false)

theorem kdfAttack_counts : kdfAttack.Counts 0 2 := ⟨1, rfl, fun _ => ⟨0, rfl, fun _ => trivial⟩⟩

example := C114_prf (n := 32) (by decide) (by decide) (by decide) kdfAttack 0 2 kdfAttack_counts (by decide) (fun b => b = true)

/-- A string of 31 bytes: with a block of 32 bytes before it and the number 8 after it, it is the padded form of the input for the first
block of another string. -/
def paddedInfo : List U8 := [0x01, 0x80] ++ List.replicate 28 0 ++ [0x03]

theorem hkdfT_related (E : Bytes 64 → Equiv.Perm (Words 32 8)) (prk : List U8) (hk : prk.length ≤ 64) :
    hkdfT (hashOf E) prk paddedInfo 8 = hkdfT (hashOf E) prk (hkdfT (hashOf E) prk paddedInfo 7) 1 := by
  have h7 : (hkdfT (hashOf E) prk paddedInfo 7).length = 32 := length_hashOf E _
  rw [show hkdfT (hashOf E) prk paddedInfo 8 =
    Spec.hmac (hashOf E) prk (hkdfT (hashOf E) prk paddedInfo 7 ++ paddedInfo ++ [BitVec.ofNat 8 8]) from rfl]
  generalize hkdfT (hashOf E) prk paddedInfo 7 = t at h7 ⊢
  show _ = Spec.hmac (hashOf E) prk ([] ++ t ++ [BitVec.ofNat 8 1])
  have hl : (t ++ [BitVec.ofNat 8 1]).length = 33 := by rw [List.length_append, h7]; rfl
  have e : t ++ paddedInfo ++ [BitVec.ofNat 8 8] = afterKey (t ++ [BitVec.ofNat 8 1]) := by
    rw [afterKey, hl, if_neg (by decide)]
    simp only [List.append_assoc]
    rfl
  have hb : ∀ c : U8, ((hmacKey (hashOf E) prk).map (· ^^^ c)).length = 64 := fun c => by
    rw [List.length_map, Hacspec.Hmac.length_hmacKey_short hk]
  rw [List.nil_append, e, Spec.hmac, Spec.hmac]
  congr 2
  have hs := shaKeys_key ⟨_, hb 0x36#8⟩ (afterKey (t ++ [BitVec.ofNat 8 1]))
  have hs' := shaKeys_key ⟨_, hb 0x36#8⟩ (t ++ [BitVec.ofNat 8 1])
  have er : restKeys (afterKey (t ++ [BitVec.ofNat 8 1])) = restKeys (t ++ [BitVec.ofNat 8 1]) := by
    refine List.map_injective_iff.mpr Subtype.val_injective ?_
    rw [map_restKeys, map_restKeys]
    conv_lhs => rw [afterKey, if_pos (length_afterKey _)]
  rw [er, ← hs'] at hs
  rw [hashOf, hashOf]
  exact congrArg (fun l => (digestOf (iter addWords E l shaStart)).1) hs

/-- Without the restriction on the strings the claim is false: for every pseudorandom key and cipher, the eighth block for one
string is the first block for the string that is the seventh one. -/
theorem C114_related_refuted (E : Bytes 64 → Equiv.Perm (Words 32 8)) (prk : List U8) (hk : prk.length ≤ 64) :
    ∃ x, Hacspec.Ideal.expand E prk paddedInfo 256 = .ok x ∧ x.length = 256 ∧
      Hacspec.Ideal.expand E prk ((x.drop 192).take 32) 32 = .ok (x.drop 224) := by
  have hx := Hacspec.Hkdf.expandWith_ok (sha_hashOf E) (length_hashOf E) (info := paddedInfo) (l := 256) hk (by decide) (by decide)
  have hT : ∀ info i, (hkdfT (hashOf E) prk info (i + 1)).length = 32 := fun info i => length_hashOf E _
  have e : hkdfExpand (hashOf E) prk paddedInfo 256 =
      ((List.range 6).map fun i => hkdfT (hashOf E) prk paddedInfo (i + 1)).flatten ++
        (hkdfT (hashOf E) prk paddedInfo 7 ++ hkdfT (hashOf E) prk paddedInfo 8) := by
    rw [hkdfExpand, show (256 + 31) / 32 = 6 + 2 from rfl, List.range_add, List.map_append, List.flatten_append, List.take_of_length_le]
    · rw [show ((List.range 2).map fun x => 6 + x) = [6, 7] from rfl]
      simp
    · rw [List.length_append, Hacspec.Hkdf.length_flatten_blocks (length_hashOf E)]
      rw [show ((List.range 2).map fun x => 6 + x) = [6, 7] from rfl]
      simp [hT]
  have h6 := Hacspec.Hkdf.length_flatten_blocks (length_hashOf E) prk paddedInfo 6
  refine ⟨_, hx, ?_, ?_⟩
  · rw [e, List.length_append, h6, List.length_append, hT, hT]
  have d1 : ((hkdfExpand (hashOf E) prk paddedInfo 256).drop 192).take 32 = hkdfT (hashOf E) prk paddedInfo 7 := by
    rw [e, List.drop_append_of_le_length (by rw [h6]), List.drop_of_length_le (by rw [h6]), List.nil_append,
      List.take_append_of_le_length (by rw [hT]), List.take_of_length_le (by rw [hT])]
  have d2 : (hkdfExpand (hashOf E) prk paddedInfo 256).drop 224 = hkdfT (hashOf E) prk paddedInfo 8 := by
    rw [e, List.drop_append, List.drop_of_length_le (by rw [h6]; decide), List.nil_append, h6, List.drop_append,
      List.drop_of_length_le (by rw [hT]), hT, List.nil_append]
    rfl
  rw [d1, d2, Hacspec.Ideal.expand, Hacspec.Hkdf.expandWith_ok (sha_hashOf E) (length_hashOf E) hk (by rw [hT]; decide) (by decide), hkdfExpand,
    hkdfT_related E prk hk]
  rw [show (List.range ((32 + 31) / 32)) = [0] from rfl, List.map_singleton, List.flatten_singleton, List.take_of_length_le]
  rw [hT]

/-- The same for the code. -/
theorem C114_code_related_refuted (prk : List U8) (hk : prk.length ≤ 64) :
    ∃ x, Hacspec.Hkdf.expand prk paddedInfo 256 = .ok x ∧ x.length = 256 ∧
      Hacspec.Hkdf.expand prk ((x.drop 192).take 32) 32 = .ok (x.drop 224) := by
  obtain ⟨E, -, hE⟩ := C114_code
  obtain ⟨x, h1, h2, h3⟩ := C114_related_refuted E prk hk
  rw [hE _ _ _ hk (by decide) (by decide)] at h1
  rw [hE _ _ _ hk (by rw [List.length_take]; omega) (by decide)] at h3
  exact ⟨x, h1, h2, h3⟩

example := C114_code_related_refuted (List.replicate 32 1) (by simp)

end Hacspec.Props
