import Verif.Lemmas.Ideal.Streams
import Verif.Props.IdealGcm

/-! # C131: encryption without authentication gives strings like random ones -/

namespace Hacspec.Props

open Spec Hacspec.Ideal Finset

/-- `chacha20.rs:87-99` `chacha` with a permutation in place of the rounds, for a key, a nonce and a message. -/
noncomputable def chachaStreamOf (π : Equiv.Perm (Words 32 16)) (key : Bytes 32) (x : Bytes 12 × List U8) : M (List U8) :=
  Hacspec.ChaCha.chachaWith (fun iv ctr => Hacspec.ChaCha.blockWith (chachaPerm π) key.1 ctr iv) x.1.1 x.2

/-- `aes.rs:288-308` `aes_encrypt` with a block cipher in place of AES, for a nonce, a counter and a message. -/
noncomputable def aesStreamOf (F : Bytes 16 → Bytes 16) (x : StreamAsk) : M (List U8) :=
  Hacspec.Aes.counterModeWith (aesBlock F) x.1.1 x.2.1 x.2.2

/-- The blocks that `chacha` uses: its counter begins with 1. -/
def chachaUses (x : Bytes 12 × List U8) : List (Bytes 12 × U32) := StreamAsk.blocks 64 (x.1, 1, x.2)

/-! ## The code -/

/-- **C131.**  The rounds are one of these permutations, and AES is one of these block ciphers: with them, the attacked functions are
`chacha` and `aes_encrypt`. -/
theorem C131_code (alg : Hacspec.Aes.Variant) :
    (∃ π : Equiv.Perm (Words 32 16), (∀ s, Hacspec.ChaCha.rounds s.1 = .ok (π s).1) ∧
      ∀ (key : Bytes 32) (iv : Bytes 12) (m : List U8), chachaStreamOf π key (iv, m) = Hacspec.ChaCha.chacha key.1 iv.1 m) ∧
    ∃ E : Bytes (4 * Hacspec.Aes.nk alg) → Equiv.Perm (Bytes 16),
      (∀ key x, Hacspec.Aes.encryptBlock key.1 x.1 (Hacspec.Aes.nk alg) (Hacspec.Aes.nr alg) alg = .ok (E key x).1) ∧
      ∀ (key : Bytes (4 * Hacspec.Aes.nk alg)) (iv : Bytes 12) (c : U32) (m : List U8),
        aesStreamOf (E key) (iv, c, m) = Hacspec.Aes.encryptKey key.1 iv.1 c m alg := by
  constructor
  · obtain ⟨π, h1, h2⟩ := C115_code
    refine ⟨π, h1, fun key iv m => ?_⟩
    have e : Hacspec.ChaCha.chachaStepWith (fun iv ctr => Hacspec.ChaCha.blockWith (chachaPerm π) key.1 ctr iv) iv.1 m =
        Hacspec.ChaCha.chachaStep key.1 iv.1 m := by
      funext i st
      have := h2 key iv st.1
      rw [chachaBlockOf] at this
      rw [Hacspec.ChaCha.chachaStepWith, Hacspec.ChaCha.chachaStep, this]
    rw [chachaStreamOf, Hacspec.ChaCha.chachaWith, Hacspec.ChaCha.chacha, e]
  · obtain ⟨E, h1, -⟩ := C117_code alg
    refine ⟨E, h1, fun key iv c m => ?_⟩
    have ek : ∀ ctr, Hacspec.Aes.ctrKeyblockWith (aesBlock (E key)) iv.1 ctr =
        Hacspec.Aes.ctrKeyblock key.1 iv.1 ctr (Hacspec.Aes.nk alg) (Hacspec.Aes.nr alg) alg := fun ctr => by
      have h3 := h1 key (point iv ctr)
      rw [C42_cipher alg key.1 _ key.2 (point iv ctr).2] at h3
      rw [ctrKeyblockWith_ok, Hacspec.Aes.ctrKeyblock_ok ctr key.2 iv.2, ← h3]
      rfl
    have e : Hacspec.Aes.ctrStepWith (aesBlock (E key)) iv.1 m =
        Hacspec.Aes.ctrStep key.1 iv.1 m (Hacspec.Aes.nk alg) (Hacspec.Aes.nr alg) alg := by
      funext i st
      rw [Hacspec.Aes.ctrStepWith, Hacspec.Aes.ctrStep, ek]
    rw [aesStreamOf, Hacspec.Aes.counterModeWith, Hacspec.Aes.encryptKey, Hacspec.Seq.fromSeq_ok, bind_ok, Hacspec.Aes.encrypt,
      Hacspec.Aes.counterMode, e]

/-! ## ChaCha20 -/

theorem len_of_nodup {n : Nat} (hn : 0 < n) (hn' : n ≤ 64) {x : StreamAsk} (h : (x.blocks n).Nodup) : x.2.2.length < 2 ^ 63 := by
  have h1 := blocks_nodup h
  have h2 := Nat.lt_mul_div_succ (x.2.2.length + n - 1) hn
  have h3 : n * ((x.2.2.length + n - 1) / n + 1) ≤ 64 * (2 ^ 32 + 1) := Nat.mul_le_mul hn' (by omega)
  omega

theorem chachaStream_ok (π : Equiv.Perm (Words 32 16)) (key : Bytes 32) (x : Bytes 12 × List U8) (h : (chachaUses x).Nodup) :
    chachaStreamOf π key x = .ok (streamOf (chachaFeed π key) (x.1, 1, x.2)) := by
  have hb : (fun ctr => Hacspec.ChaCha.blockWith (chachaPerm π) key.1 ctr x.1.1) = chachaBlock (chachaFeed π key) x.1.1 := by
    funext ctr
    rw [chachaBlock_ok]
    exact chachaBlockOf_ok π key (x.1, ctr)
  have e : Hacspec.ChaCha.chachaStepWith (fun iv ctr => Hacspec.ChaCha.blockWith (chachaPerm π) key.1 ctr iv) x.1.1 x.2 =
      Hacspec.ChaCha.chachaStepWith (chachaBlock (chachaFeed π key)) x.1.1 x.2 := by
    funext i st
    have := congrFun hb st.1
    rw [Hacspec.ChaCha.chachaStepWith, Hacspec.ChaCha.chachaStepWith]
    simp only [this]
  have h' := chachaWith_ok (chachaFeed π key) x.1 (len_of_nodup (n := 64) (by omega) (by omega) h)
  rw [chachaStreamOf, Hacspec.ChaCha.chachaWith, e]
  exact h'

theorem bxor_right_injective {n : Nat} (b : Bytes n) : Function.Injective fun a => bxor a b := fun a a' h => by
  simp only [bxor_comm _ b] at h
  exact bxor_left_inj h

open Classical in
/-- **C131.**  ChaCha20: whoever asks the permutation `q` times, in both directions, and lets messages be encrypted with `s` blocks in
all, none of them twice, decides for the code with a random key and a random permutation as often as for random strings of the
lengths of the messages, up to `blockBound`. -/
theorem C131_chacha {O : Type} (p : Prog (Dir Unit (Words 32 16) ⊕ Bytes 12 × List U8) (Words 32 16 ⊕ M (List U8)) O) (q s : Nat)
    (hc : p.Uses (fun x => (chachaUses x).length) q s) (hp : FreshBlocks chachaUses p []) (acc : O → Prop) :
    |share (fun ω : Equiv.Perm (Words 32 16) × Bytes 32 => acc (p.run (bothAnswer ω.1 (chachaStreamOf ω.1 ω.2)))) -
      share (fun ω : Equiv.Perm (Words 32 16) × (Bytes 12 × U32 → Bytes 64) =>
        acc (p.run (bothAnswer ω.1 fun x => .ok (randomStream ω.2 (x.1, 1, x.2)))))| ≤ blockBound q s := by
  let ans : (Bytes 12 × U32 → Bytes 64) → Bytes 12 × List U8 → M (List U8) := fun F x => .ok (streamOf F (x.1, 1, x.2))
  have hloc : ∀ x F F', (∀ j ∈ chachaUses x, F j = F' j) → ans F x = ans F' x :=
    fun x F F' h => congrArg Except.ok (streamOf_local (x.1, 1, x.2) F F' h)
  have h := feed_abs (viaBlocks_counts (ans := ans) zeroBlock (.error .panic) hc) acc
  have e1 : ∀ ω : Equiv.Perm (Words 32 16) × Bytes 32,
      acc ((viaBlocks chachaUses ans zeroBlock (.error .panic) p).run (bothAnswer ω.1 (chachaFeed ω.1 ω.2))) ↔
        acc (p.run (bothAnswer ω.1 (chachaStreamOf ω.1 ω.2))) := fun ω => by
    rw [bothAnswer, run_viaBlocks _ _ hloc, bothAnswer, ← run_fresh _ (fun x hx => chachaStream_ok ω.1 ω.2 x hx) hp]
  rw [share_congr e1] at h
  have e2 : share (fun ω : Equiv.Perm (Words 32 16) × (Bytes 12 × U32 → Bytes 64) =>
        acc ((viaBlocks chachaUses ans zeroBlock (.error .panic) p).run (bothAnswer ω.1 ω.2))) =
      share (fun ω : Equiv.Perm (Words 32 16) × (Bytes 12 × U32 → Bytes 64) =>
        acc (p.run (bothAnswer ω.1 fun x => .ok (randomStream ω.2 (x.1, 1, x.2))))) := by
    have hs : ∀ π : Equiv.Perm (Words 32 16),
        share (fun F => acc ((viaBlocks chachaUses ans zeroBlock (.error .panic) p).run (bothAnswer π F))) =
          share (fun F : Bytes 12 × U32 → Bytes 64 => acc (p.run (bothAnswer π fun x => .ok (randomStream F (x.1, 1, x.2))))) := fun π => by
      have h := share_fresh (Dir.answer fun _ => π) (f := chachaUses)
        (ans := fun (F : Bytes 12 × U32 → Bytes 64) x => (.ok (randomStream F (x.1, 1, x.2)) : M (List U8))) (real := ans)
        (fun x j y => bxor y (dl 64 x.2 (List.replicate x.2.length 0) (j.2 - 1).toNat)) (fun x j => bxor_right_injective _)
        (fun x F F' h => congrArg Except.ok (randomStream_local (x.1, 1, x.2) F F' h))
        (fun x F h => congrArg Except.ok (streamOf_eq (n := 64) (by omega) F (x.1, 1, x.2) h)) hp acc
      refine Eq.trans (share_congr fun F => ?_) h
      rw [bothAnswer, run_viaBlocks _ _ hloc]
    rw [share_prod, share_prod, Finset.sum_congr rfl fun π _ => hs π]
  rwa [e2] at h

/-! ## AES -/

/-- The blocks of AES are those of nonce and counter. -/
noncomputable def pointEquiv : Bytes 12 × U32 ≃ Bytes 16 :=
  Equiv.ofBijective (fun j => point j.1 j.2) ((Fintype.bijective_iff_injective_and_card _).mpr
    ⟨fun _ _ h => Prod.ext (point_inj h).1 (point_inj h).2, by
      rw [Fintype.card_prod, card_bytes, card_bytes, Fintype.card_congr (⟨BitVec.toFin, BitVec.ofFin, fun _ => rfl, fun _ => rfl⟩ : U32 ≃ Fin (2 ^ 32)), Fintype.card_fin]
      norm_num⟩)

theorem aesStream_ok (F : Bytes 16 → Bytes 16) (x : StreamAsk) (h : (x.blocks 16).Nodup) :
    aesStreamOf F x = .ok (streamOf (fun j => F (pointEquiv j)) x) :=
  counterModeWith_ok F x.1 x.2.1 (len_of_nodup (n := 16) (by omega) (by omega) h)

theorem aes_le {k : Nat} {O : Type} (p : Prog (Dir (Bytes k) (Bytes 16) ⊕ StreamAsk) (Bytes 16 ⊕ M (List U8)) O) (q s : Nat)
    (hc : p.Uses (fun x => (x.blocks 16).length) q s) (hp : FreshBlocks (StreamAsk.blocks 16) p []) (acc : O → Prop) :
    share (fun ω : (Bytes k → Equiv.Perm (Bytes 16)) × Bytes k =>
        acc (p.run (sideAnswer (Dir.answer ω.1) (aesStreamOf (ω.1 ω.2))))) ≤
      share (fun ω : (Bytes k → Equiv.Perm (Bytes 16)) × (Bytes 12 × U32 → Bytes 16) =>
        acc (p.run (sideAnswer (Dir.answer ω.1) fun x => .ok (randomStream ω.2 x)))) + ctrBound k q s := by
  classical
  have : Nonempty (Bytes 16) := ⟨point ⟨List.replicate 12 0, List.length_replicate⟩ 0⟩
  let f : StreamAsk → List (Bytes 16) := fun x => (x.blocks 16).map pointEquiv
  let ans : (Bytes 16 → Bytes 16) → StreamAsk → M (List U8) := fun F x => .ok (streamOf (fun j => F (pointEquiv j)) x)
  have hloc : ∀ x F F', (∀ j ∈ f x, F j = F' j) → ans F x = ans F' x :=
    fun x F F' h => congrArg Except.ok (streamOf_local x _ _ fun j hj => h _ (List.mem_map_of_mem hj))
  have hU : (viaBlocks f ans (Classical.arbitrary _) (.error .panic) p).Counts q s :=
    viaBlocks_counts _ _ (by simpa only [f, List.length_map] using hc)
  have hk : (Fintype.card (Bytes k) : ℚ) = 2 ^ (8 * k) := by
    rw [card_bytes, pow_mul]
    norm_num
  have h16 : (2 * Fintype.card (Bytes 16) : ℚ) = 2 ^ 129 := by
    rw [card_bytes]
    norm_num
  have h1 := share_keyed (K := Bytes k) (fun (π : Equiv.Perm (Bytes 16)) x => π x) hU acc
  have h2 : share (fun ω : (Bytes k → Equiv.Perm (Bytes 16)) × Equiv.Perm (Bytes 16) =>
        acc ((viaBlocks f ans (Classical.arbitrary _) (.error .panic) p).run (sideAnswer (Dir.answer ω.1) ω.2))) ≤
      share (fun ω : (Bytes k → Equiv.Perm (Bytes 16)) × (Bytes 12 × U32 → Bytes 16) =>
        acc (p.run (sideAnswer (Dir.answer ω.1) fun x => .ok (randomStream ω.2 x)))) + s * (s - 1) / 2 ^ 129 := by
    refine share_prod_add fun E => ?_
    have h := share_switch (Dir.answer E) hU acc
    rw [h16] at h
    refine h.trans (le_of_eq (congrArg (· + _) ?_))
    have h' := share_fresh (Dir.answer E) (f := StreamAsk.blocks 16)
      (ans := fun (F : Bytes 12 × U32 → Bytes 16) x => (.ok (randomStream F x) : M (List U8))) (real := fun F x => .ok (streamOf F x))
      (fun x j y => bxor y (dl 16 x.2.2 (List.replicate x.2.2.length 0) (j.2 - x.2.1).toNat)) (fun x j => bxor_right_injective _)
      (fun x F F' h => congrArg Except.ok (randomStream_local x F F' h))
      (fun x F h => congrArg Except.ok (streamOf_eq (n := 16) (by omega) F x h)) hp acc
    rw [← h', ← share_equiv (Equiv.arrowCongr pointEquiv.symm (Equiv.refl (Bytes 16)))]
    refine share_congr fun F => ?_
    rw [run_viaBlocks _ _ hloc]
    rfl
  rw [hk] at h1
  have e : ∀ ω : (Bytes k → Equiv.Perm (Bytes 16)) × Bytes k,
      acc ((viaBlocks f ans (Classical.arbitrary _) (.error .panic) p).run (sideAnswer (Dir.answer ω.1) (ω.1 ω.2))) ↔
        acc (p.run (sideAnswer (Dir.answer ω.1) (aesStreamOf (ω.1 ω.2)))) := fun ω =>
    iff_of_eq (congrArg acc ((run_viaBlocks _ _ hloc _ _ p).trans (run_fresh _ (fun x hx => (aesStream_ok (ω.1 ω.2) x hx).symm) hp)))
  rw [share_congr e] at h1
  rw [ctrBound]
  linarith

/-- **C131.**  AES: whoever asks the block cipher `q` times, with any keys and in both directions, and lets messages be encrypted with
`s` blocks in all, none of them twice, decides for the code with a random key and a random block cipher as often as for random
strings of the lengths of the messages, up to `ctrBound`. -/
theorem C131_aes {k : Nat} {O : Type} (p : Prog (Dir (Bytes k) (Bytes 16) ⊕ StreamAsk) (Bytes 16 ⊕ M (List U8)) O) (q s : Nat)
    (hc : p.Uses (fun x => (x.blocks 16).length) q s) (hp : FreshBlocks (StreamAsk.blocks 16) p []) (acc : O → Prop) :
    |share (fun ω : (Bytes k → Equiv.Perm (Bytes 16)) × Bytes k =>
        acc (p.run (sideAnswer (Dir.answer ω.1) (aesStreamOf (ω.1 ω.2))))) -
      share (fun ω : (Bytes k → Equiv.Perm (Bytes 16)) × (Bytes 12 × U32 → Bytes 16) =>
        acc (p.run (sideAnswer (Dir.answer ω.1) fun x => .ok (randomStream ω.2 x))))| ≤ ctrBound k q s := by
  have h1 := aes_le p q s hc hp acc
  have h2 := aes_le p q s hc hp fun o => ¬ acc o
  have : Nonempty (Bytes k) := ⟨⟨List.replicate k 0, List.length_replicate⟩⟩
  have : Nonempty (Bytes 16) := ⟨point ⟨List.replicate 12 0, List.length_replicate⟩ 0⟩
  rw [share_sub, share_sub] at h2
  rw [abs_le]
  constructor <;> linarith

/-! ## Blocks that are used twice -/

/-- The bytes 0 and 1 are encrypted in the same way, and the ciphertexts are compared. -/
def twiceAttack {D X Q : Type} (f : List U8 → Q) : Prog (D ⊕ Q) (X ⊕ M (List U8)) ((X ⊕ M (List U8)) × (X ⊕ M (List U8))) :=
  .ask (.inr (f [0])) fun a => .ask (.inr (f [1])) fun b => .ret (a, b)

theorem streamOf_byte {n : Nat} (hn : 0 < n) (H : Bytes 12 × U32 → Bytes n) (iv : Bytes 12) (c : U32) (v : U8) :
    streamOf H (iv, c, [v]) = [v ^^^ (H (iv, c)).1[0]'(by rw [(H _).2]; exact hn)] := by
  rw [streamOf, stream_eq hn (fun j => (H _).2)]
  have h1 : ([v].length + n - 1) / n = 1 := by
    rw [List.length_singleton, Nat.add_sub_cancel_left, Nat.div_self hn]
  have h0 : c + BitVec.ofNat 32 0 = c := by simp
  simp only [h1, List.range_one, List.flatMap_singleton, h0]
  rw [Spec.xor]
  generalize H (iv, c) = l
  obtain ⟨l, hl⟩ := l
  cases l with
  | nil => exact absurd hl (by simp; omega)
  | cons x l => simp

theorem blocks_byte {n : Nat} (hn : 0 < n) (iv : Bytes 12) (c : U32) (v : U8) : (StreamAsk.blocks n (iv, c, [v])).Nodup := by
  have h1 : ([v].length + n - 1) / n = 1 := by
    rw [List.length_singleton, Nat.add_sub_cancel_left, Nat.div_self hn]
  rw [StreamAsk.blocks]
  simp only [h1]
  exact List.nodup_singleton _

/-- **C131.**  Each block is to be used only once: otherwise two questions about one block are enough to tell the code from random
strings, always, for all permutations and keys. -/
theorem C131_chacha_twice : ∃ (p : Prog (Dir Unit (Words 32 16) ⊕ Bytes 12 × List U8) (Words 32 16 ⊕ M (List U8))
      ((Words 32 16 ⊕ M (List U8)) × (Words 32 16 ⊕ M (List U8)))), p.Uses (fun x => (chachaUses x).length) 0 2 ∧
    (∀ π key, (p.run (bothAnswer π (chachaStreamOf π key))).1 ≠ (p.run (bothAnswer π (chachaStreamOf π key))).2) ∧
    ∀ (π : Equiv.Perm (Words 32 16)) (H : Bytes 12 × U32 → Bytes 64),
      (p.run (bothAnswer π fun x => .ok (randomStream H (x.1, 1, x.2)))).1 =
        (p.run (bothAnswer π fun x => .ok (randomStream H (x.1, 1, x.2)))).2 := by
  refine ⟨twiceAttack fun m => (⟨List.replicate 12 0, List.length_replicate⟩, m), ⟨1, rfl, fun _ => ⟨0, rfl, fun _ => trivial⟩⟩,
    fun π key h => ?_, fun π H => rfl⟩
  have h : (Sum.inr (chachaStreamOf π key (_, [0])) : Words 32 16 ⊕ M (List U8)) = .inr (chachaStreamOf π key (_, [1])) := h
  rw [chachaStream_ok π key (_, [0]) (blocks_byte (n := 64) (by omega) _ _ _),
    chachaStream_ok π key (_, [1]) (blocks_byte (n := 64) (by omega) _ _ _),
    streamOf_byte (by omega), streamOf_byte (by omega)] at h
  have h := List.head_eq_of_cons_eq (Except.ok.inj (Sum.inr.inj h))
  exact absurd ((BitVec.xor_left_inj _).mp h) (by decide)

/-- **C131.**  The same with AES. -/
theorem C131_aes_twice (k : Nat) : ∃ (p : Prog (Dir (Bytes k) (Bytes 16) ⊕ StreamAsk) (Bytes 16 ⊕ M (List U8))
      ((Bytes 16 ⊕ M (List U8)) × (Bytes 16 ⊕ M (List U8)))), p.Uses (fun x => (x.blocks 16).length) 0 2 ∧
    (∀ (E : Bytes k → Equiv.Perm (Bytes 16)) key, (p.run (sideAnswer (Dir.answer E) (aesStreamOf (E key)))).1 ≠
      (p.run (sideAnswer (Dir.answer E) (aesStreamOf (E key)))).2) ∧
    ∀ (E : Bytes k → Equiv.Perm (Bytes 16)) (H : Bytes 12 × U32 → Bytes 16),
      (p.run (sideAnswer (Dir.answer E) fun x => .ok (randomStream H x))).1 =
        (p.run (sideAnswer (Dir.answer E) fun x => .ok (randomStream H x))).2 := by
  refine ⟨twiceAttack fun m => (⟨List.replicate 12 0, List.length_replicate⟩, 5, m), ⟨1, rfl, fun _ => ⟨0, rfl, fun _ => trivial⟩⟩,
    fun E key h => ?_, fun E H => rfl⟩
  have h : (Sum.inr (aesStreamOf (E key) (_, 5, [0])) : Bytes 16 ⊕ M (List U8)) = .inr (aesStreamOf (E key) (_, 5, [1])) := h
  rw [aesStream_ok (E key) (_, 5, [0]) (blocks_byte (by omega) _ _ _), aesStream_ok (E key) (_, 5, [1]) (blocks_byte (by omega) _ _ _),
    streamOf_byte (by omega), streamOf_byte (by omega)] at h
  have h := List.head_eq_of_cons_eq (Except.ok.inj (Sum.inr.inj h))
  exact absurd ((BitVec.xor_left_inj _).mp h) (by decide)

/-! ## Examples -/

/-- An adaptive attack: the first ciphertext of 20 bytes is the message that is encrypted next, with the next counter that is free;
the cipher is asked with a key of zeros. -/
def ctrAttack : Prog (Dir (Bytes 16) (Bytes 16) ⊕ StreamAsk) (Bytes 16 ⊕ M (List U8)) Bool :=
  .ask (.inr (zeroIv, 7, List.replicate 20 3)) fun a =>
    .ask (.inr (zeroIv, 9, (match a with | .inr (.ok c) => c | _ => []).take 16)) fun b =>
      .ask (.inl (.fwd ⟨List.replicate 16 0, List.length_replicate⟩ (point zeroIv 7))) fun r =>
        .ret (match a, b, r with | .inr (.ok c), .inr (.ok d), .inl y => c.take 4 == d.take 4 || c.take 3 == y.1.take 3 | _, _, _ => false)

theorem blocks_short {iv : Bytes 12} {c : U32} {m : List U8} (hm : m.length ≤ 16) :
    StreamAsk.blocks 16 (iv, c, m) = [] ∨ StreamAsk.blocks 16 (iv, c, m) = [(iv, c)] := by
  have h0 : c + BitVec.ofNat 32 0 = c := by simp
  have : (m.length + 16 - 1) / 16 = 0 ∨ (m.length + 16 - 1) / 16 = 1 := by omega
  rcases this with h | h
  · exact .inl (by rw [StreamAsk.blocks]; simp only [h]; rfl)
  · exact .inr (by rw [StreamAsk.blocks]; simp only [h, List.range_one, List.map_singleton, h0])

theorem ctrAttack_fresh : FreshBlocks (StreamAsk.blocks 16) ctrAttack [] := by
  refine ⟨?_, fun j _ => List.not_mem_nil, fun a => ⟨?_, ?_, fun b r => trivial⟩⟩
  · simp [StreamAsk.blocks, List.range_succ]
  · rcases blocks_short (iv := zeroIv) (c := 9) (m := (match a with | .inr (.ok c) => c | _ => []).take 16) (by simp) with h | h
    · rw [h]; exact List.nodup_nil
    · rw [h]; exact List.nodup_singleton _
  · intro j hj
    have hj : j = (zeroIv, 9) := by
      rcases blocks_short (iv := zeroIv) (c := 9) (m := (match a with | .inr (.ok c) => c | _ => []).take 16) (by simp) with h | h
      · rw [h] at hj; exact absurd hj List.not_mem_nil
      · rw [h] at hj; exact List.mem_singleton.mp hj
    subst hj
    simp [StreamAsk.blocks, List.range_succ]

theorem uses_mono {D Q R O : Type} {w : Q → Nat} {p : Prog (D ⊕ Q) R O} {q s s' : Nat} (h : p.Uses w q s) (hs : s ≤ s') : p.Uses w q s' := by
  induction p generalizing q s s' with
  | ret o => trivial
  | ask x k ih =>
    cases x with
    | inl d =>
      obtain ⟨q, rfl, h⟩ := h
      exact ⟨q, rfl, fun r => ih r (h r) hs⟩
    | inr x =>
      obtain ⟨s, rfl, h⟩ := h
      exact ⟨s' - w x, by omega, fun r => ih r (h r) (by omega)⟩

theorem ctrAttack_uses : ctrAttack.Uses (fun x => (x.blocks 16).length) 1 3 := by
  refine ⟨1, by simp [StreamAsk.blocks], fun a => ?_⟩
  rcases blocks_short (iv := zeroIv) (c := 9) (m := (match a with | .inr (.ok c) => c | _ => []).take 16) (by simp) with h | h
  · exact ⟨1, by simp only [h]; rfl, fun b => ⟨0, rfl, fun _ => trivial⟩⟩
  · exact ⟨0, by simp only [h]; rfl, fun b => ⟨0, rfl, fun _ => trivial⟩⟩

example := C131_aes ctrAttack 1 3 ctrAttack_uses ctrAttack_fresh (fun b => b = true)

/-- Two nonces with ChaCha20, and the permutation backwards. -/
def nonceAttack : Prog (Dir Unit (Words 32 16) ⊕ Bytes 12 × List U8) (Words 32 16 ⊕ M (List U8)) Bool :=
  .ask (.inr (zeroIv, List.replicate 100 3)) fun a =>
    .ask (.inl (.bwd () ⟨List.replicate 16 0, List.length_replicate⟩)) fun r =>
      .ask (.inr (⟨List.replicate 12 1, List.length_replicate⟩, List.replicate 60 3)) fun b =>
        .ret (match a, b, r with | .inr (.ok c), .inr (.ok d), .inl s => c.take 4 == d.take 4 || s.1.take 1 == [5] | _, _, _ => false)

example := C131_chacha nonceAttack 1 3 ⟨1, by simp [chachaUses, StreamAsk.blocks], fun _ => ⟨0, rfl, fun _ => ⟨0, by
    simp [chachaUses, StreamAsk.blocks], fun _ => trivial⟩⟩⟩
  ⟨by simp [chachaUses, StreamAsk.blocks, List.range_succ], fun _ _ => List.not_mem_nil, fun _ _ => ⟨by
    simp [chachaUses, StreamAsk.blocks, List.range_succ], by
      simp [chachaUses, StreamAsk.blocks, List.range_succ]
      exact fun h => absurd (congrArg (fun b : Bytes 12 => b.1.head?) h) (by decide), fun _ => trivial⟩⟩ (fun b => b = true)

example := C131_code .aes256

/-- `2⁸⁰` questions about AES-128 and `2⁴⁰` blocks of 16 bytes. -/
example : ctrBound 16 (2 ^ 80) (2 ^ 40) < 1 / 2 ^ 47 := by
  rw [ctrBound]
  norm_num

end Hacspec.Props
