import Verif.Lemmas.Ideal.Strategy
import Verif.Props.IdealBlocks
import Verif.Props.Ideals

/-! # C116: ChaCha20-Poly1305 with a random permutation in place of the rounds -/

namespace Hacspec.Props

open Spec Hacspec.Ideal Finset

/-! ## The code -/

theorem encryptWith_at {blk blk' : List U8 → U32 → M (List U8)} {iv : List U8} (h : blk iv = blk' iv) (aad m : List U8) :
    Hacspec.ChaChaPoly.encryptWith blk iv aad m = Hacspec.ChaChaPoly.encryptWith blk' iv aad m := by
  have hs : Hacspec.ChaCha.chachaWith blk iv m = Hacspec.ChaCha.chachaWith blk' iv m := by
    have : Hacspec.ChaCha.chachaStepWith blk iv m = Hacspec.ChaCha.chachaStepWith blk' iv m := by
      funext i st
      rw [Hacspec.ChaCha.chachaStepWith, Hacspec.ChaCha.chachaStepWith, h]
    rw [Hacspec.ChaCha.chachaWith, Hacspec.ChaCha.chachaWith, this]
  rw [Hacspec.ChaChaPoly.encryptWith, Hacspec.ChaChaPoly.encryptWith, h, hs]

theorem decryptWith_at {blk blk' : List U8 → U32 → M (List U8)} {iv : List U8} (h : blk iv = blk' iv) (aad c t : List U8) :
    Hacspec.ChaChaPoly.decryptWith blk iv aad c t = Hacspec.ChaChaPoly.decryptWith blk' iv aad c t := by
  have hs : Hacspec.ChaCha.chachaWith blk iv c = Hacspec.ChaCha.chachaWith blk' iv c := by
    have : Hacspec.ChaCha.chachaStepWith blk iv c = Hacspec.ChaCha.chachaStepWith blk' iv c := by
      funext i st
      rw [Hacspec.ChaCha.chachaStepWith, Hacspec.ChaCha.chachaStepWith, h]
    rw [Hacspec.ChaCha.chachaWith, Hacspec.ChaCha.chachaWith, this]
  rw [Hacspec.ChaChaPoly.decryptWith, Hacspec.ChaChaPoly.decryptWith, h, hs]

/-- **C116.**  The rounds are one of these permutations: with it, the attacked functions are `encrypt` and `decrypt`. -/
theorem C116_code : ∃ π : Equiv.Perm (Words 32 16), (∀ s, Hacspec.ChaCha.rounds s.1 = .ok (π s).1) ∧
    ∀ (key : Bytes 32) (iv : Bytes 12) (aad m c : List U8) (t : Bytes 16),
      chachaPolyOf.enc (π, key) iv aad m = Hacspec.ChaChaPoly.encrypt key.1 iv.1 aad m ∧
      chachaPolyOf.dec (π, key) iv aad c t = Hacspec.ChaChaPoly.decrypt key.1 iv.1 aad c t.1 := by
  obtain ⟨π, h1, h2⟩ := C115_code
  refine ⟨π, h1, fun key iv aad m c t => ?_⟩
  rw [Hacspec.ChaChaPoly.encrypt_instance, Hacspec.ChaChaPoly.decrypt_instance]
  have e : (fun ctr => Hacspec.ChaCha.blockWith (chachaPerm π) key.1 ctr iv.1) = fun ctr => Hacspec.ChaCha.block key.1 ctr iv.1 :=
    funext fun ctr => h2 key iv ctr
  exact ⟨encryptWith_at (blk := fun iv ctr => Hacspec.ChaCha.blockWith (chachaPerm π) key.1 ctr iv)
      (blk' := fun iv ctr => Hacspec.ChaCha.block key.1 ctr iv) e aad m,
    decryptWith_at (blk := fun iv ctr => Hacspec.ChaCha.blockWith (chachaPerm π) key.1 ctr iv)
      (blk' := fun iv ctr => Hacspec.ChaCha.block key.1 ctr iv) e aad c t.1⟩

theorem chachaPolyOf_answer (ω : Equiv.Perm (Words 32 16) × Bytes 32) (a : Ask) :
    chachaPolyOf.answer ω a = chachaPoly.answer (chachaFeed ω.1 ω.2) a := by
  have hb : ∀ iv : Bytes 12, (fun ctr => Hacspec.ChaCha.blockWith (chachaPerm ω.1) ω.2.1 ctr iv.1) = chachaBlock (chachaFeed ω.1 ω.2) iv.1 := by
    intro iv
    funext ctr
    rw [chachaBlock_ok]
    exact chachaBlockOf_ok ω.1 ω.2 (iv, ctr)
  cases a with
  | enc iv aad m =>
    have : chachaPolyOf.enc ω iv aad m = chachaPoly.enc (chachaFeed ω.1 ω.2) iv aad m :=
      encryptWith_at (blk := fun iv ctr => Hacspec.ChaCha.blockWith (chachaPerm ω.1) ω.2.1 ctr iv) (hb iv) aad m
    rw [Aead.answer, Aead.answer, this]
  | dec iv aad c t =>
    have : chachaPolyOf.dec ω iv aad c t = chachaPoly.dec (chachaFeed ω.1 ω.2) iv aad c t :=
      decryptWith_at (blk := fun iv ctr => Hacspec.ChaCha.blockWith (chachaPerm ω.1) ω.2.1 ctr iv) (hb iv) aad c t.1
    rw [Aead.answer, Aead.answer, this]
  | stop => rfl

/-! ## The blocks that are used -/

/-- The blocks for a nonce and a message. -/
def blocksOf (iv : Bytes 12) (m : List U8) : List (Bytes 12 × U32) :=
  (iv, 0) :: (List.range ((m.length + 63) / 64)).map fun j => (iv, 1 + BitVec.ofNat 32 j)

/-- The blocks for a question. -/
def chachaPoints : Ask → List (Bytes 12 × U32)
  | .enc iv _ m => blocksOf iv m
  | .dec iv _ c _ => blocksOf iv c
  | .stop => []

theorem chachaCt_local {F F' : Bytes 12 × U32 → Bytes 64} {iv : Bytes 12} {m : List U8} (h : ∀ j ∈ blocksOf iv m, F j = F' j) :
    chachaCt F iv m = chachaCt F' iv m ∧ polyKey F iv = polyKey F' iv := by
  refine ⟨stream_congr fun j hj => ?_, ?_⟩
  · rw [h _ (List.mem_cons_of_mem _ (List.mem_map.mpr ⟨j, List.mem_range.mpr hj, rfl⟩))]
  · rw [polyKey, polyKey, h _ (List.mem_cons_self ..)]

theorem chachaPoints_local {L : Nat} (hL : L < 2 ^ 32) (a : Ask) (h : List Seen) (ha : a.Allowed L h) (F F' : Bytes 12 × U32 → Bytes 64)
    (e : ∀ j ∈ chachaPoints a, F j = F' j) : chachaPoly.answer F a = chachaPoly.answer F' a := by
  cases a with
  | enc iv aad m =>
    have hm := len_of_blocks ha.2 hL
    obtain ⟨e1, e2⟩ := chachaCt_local e
    rw [Aead.answer, Aead.answer, chachaPoly_enc F iv aad (by omega), chachaPoly_enc F' iv aad (by omega), e1, e2]
  | dec iv aad c t =>
    have hm := len_of_blocks ha.2 hL
    obtain ⟨e1, e2⟩ := chachaCt_local e
    rw [Aead.answer, Aead.answer, chachaPoly_dec F iv aad (by omega), chachaPoly_dec F' iv aad (by omega), e1, e2]
  | stop => rfl

theorem chachaPoints_length {L : Nat} (a : Ask) (h : List Seen) (ha : a.Allowed L h) : (chachaPoints a).length ≤ L := by
  have key : ∀ (iv : Bytes 12) (aad m : List U8), blocks aad m ≤ L → (blocksOf iv m).length ≤ L := by
    intro iv aad m h
    rw [blocksOf, List.length_cons, List.length_map, List.length_range]
    rw [blocks] at h
    omega
  cases a with
  | enc iv aad m => exact key iv aad m ha.2
  | dec iv aad c t => exact key iv aad c ha.2
  | stop => exact Nat.zero_le _

/-! ## From the code to a random function -/

/-- A block of zeros. -/
def zeroBlock : Bytes 64 := ⟨List.replicate 64 0, List.length_replicate⟩

theorem aead_le {Q O : Type} (f : Q → Ask) {p : ChaChaAttack Q O} {L q n : Nat} (hL : L < 2 ^ 32) (hc : p.Counts q n) (hp : ByRules f L p [])
    (acc : O → Prop) :
    |share (fun ω : Equiv.Perm (Words 32 16) × Bytes 32 => acc (p.run (bothAnswer ω.1 fun x => chachaPolyOf.answer ω (f x)))) -
      share (fun ω : Equiv.Perm (Words 32 16) × (Bytes 12 × U32 → Bytes 64) =>
        acc (p.run (bothAnswer ω.1 fun x => chachaPoly.answer ω.2 (f x))))| ≤ blockBound q (n * L) := by
  classical
  let P := byBlocks chachaPoly chachaPoints zeroBlock f L p
  have hP : P.Counts q (n * L) := byBlocks_counts zeroBlock hc
  have hr : ∀ (π : Equiv.Perm (Words 32 16)) F, P.run (bothAnswer π F) = p.run (bothAnswer π fun x => chachaPoly.answer F (f x)) :=
    fun π F => run_byBlocks zeroBlock (chachaPoints_local hL) chachaPoints_length _ F hp
  have h := feed_abs hP acc
  have e1 : ∀ ω : Equiv.Perm (Words 32 16) × (Bytes 12 × U32 → Bytes 64),
      acc (P.run (bothAnswer ω.1 ω.2)) ↔ acc (p.run (bothAnswer ω.1 fun x => chachaPoly.answer ω.2 (f x))) := fun ω => by rw [hr]
  have e2 : ∀ ω : Equiv.Perm (Words 32 16) × Bytes 32,
      acc (P.run (bothAnswer ω.1 (chachaFeed ω.1 ω.2))) ↔ acc (p.run (bothAnswer ω.1 fun x => chachaPolyOf.answer ω (f x))) := fun ω => by
    rw [hr, show (fun x => chachaPolyOf.answer ω (f x)) = fun x => chachaPoly.answer (chachaFeed ω.1 ω.2) (f x) from
      funext fun x => chachaPolyOf_answer ω (f x)]
  rwa [share_congr e1, share_congr e2] at h

theorem share_of_card {Ω : Type} [Fintype Ω] [Nonempty Ω] {P : Ω → Prop} [DecidablePred P] {a b : Nat} (ha : 0 < a)
    (h : a * (univ.filter P).card ≤ b * Fintype.card Ω) : share P ≤ b / a := by
  have hΩ : (0 : ℚ) < Fintype.card Ω := Nat.cast_pos.mpr Fintype.card_pos
  rw [share, div_le_div_iff₀ hΩ (Nat.cast_pos.mpr ha)]
  have := (Nat.cast_le (α := ℚ)).mpr h
  push_cast at this
  rw [mul_comm]
  refine le_trans (le_of_eq ?_) this
  congr

theorem share_of_cards {Ω : Type} [Fintype Ω] [Nonempty Ω] {P Q : Ω → Prop} [DecidablePred P] [DecidablePred Q] {a b : Nat} (ha : 0 < a)
    (h : a * (univ.filter P).card ≤ a * (univ.filter Q).card + b * Fintype.card Ω) : share P ≤ share Q + b / a := by
  have hΩ : (0 : ℚ) < Fintype.card Ω := Nat.cast_pos.mpr Fintype.card_pos
  have ha : (0 : ℚ) < a := Nat.cast_pos.mpr ha
  have this := (Nat.cast_le (α := ℚ)).mpr h
  push_cast at this
  rw [share, share, div_add_div _ _ hΩ.ne' ha.ne', div_le_div_iff₀ hΩ (mul_pos hΩ ha)]
  have := mul_le_mul_of_nonneg_right this hΩ.le
  refine le_trans (le_of_eq ?_) (this.trans (le_of_eq ?_))
  · rw [mul_comm (Fintype.card Ω : ℚ) a, ← mul_assoc, mul_comm (a : ℚ)]
    congr
  · rw [mul_comm (Fintype.card Ω : ℚ) b, mul_comm (a : ℚ)]
    congr

/-! ## Forgeries -/

/-- **C116.**  Whoever asks the permutation `q` times and `n` questions by the rules, with data of at most `L` blocks, has a ciphertext
decrypted that was not an answer for at most `chachaForgery L n + blockBound q (n·L)` of all permutations and keys. -/
theorem C116_forgery {O : Type} (p : ChaChaAttack Ask O) (L q n : Nat) (hL : L < 2 ^ 32) (hc : p.Counts q n) (hp : ByRules id L p []) :
    share (fun ω : Equiv.Perm (Words 32 16) × Bytes 32 => Decrypted (p.answers (bothAnswer ω.1 (chachaPolyOf.answer ω)))) ≤
      chachaForgery L n + blockBound q (n * L) := by
  classical
  have h := aead_le id hL (record_counts hc []) (record_rules id L hp []) Decrypted
  have h := (abs_le.mp h).2
  simp only [run_record, List.nil_append, id] at h
  have h2 : share (fun ω : Equiv.Perm (Words 32 16) × (Bytes 12 × U32 → Bytes 64) =>
      Decrypted (p.answers (bothAnswer ω.1 fun x => chachaPoly.answer ω.2 x))) ≤ chachaForgery L n := by
    refine share_prod_le (by rw [chachaForgery]; positivity) fun π => ?_
    have h1 := C106_chacha (strategyOf id (strip (Dir.answer fun _ => π) p)) L n (proper_strategy id L _ hp) hL
    have h2 := share_of_card (by norm_num) h1
    refine (share_mono fun F hF => ?_).trans (h2.trans (le_of_eq ?_))
    · obtain ⟨iv, aad, c, t, m, hm⟩ := hF
      have hm := (answers_strip _ _ p).mp hm
      obtain ⟨k, hk, e⟩ := answers_play chachaPoly id F _ (strip_within _ hc) hm
      exact ⟨k, hk, iv, aad, c, t, m, e⟩
    · rw [chachaForgery]
      push_cast
      rfl
  linarith

/-! ## Messages -/

theorem _root_.Hacspec.Spec.Pair.allowed_snd (x : Pair) {L : Nat} {h : List Seen} (ha : x.fst.Allowed L h) : x.snd.Allowed L h := by
  obtain ⟨⟨a, b⟩, hs⟩ := x
  match a, b, hs, ha with
  | .enc iv aad m, .enc iv' aad' m', hs, ha =>
    obtain ⟨rfl, rfl, e⟩ := hs
    exact ⟨ha.1, le_trans (le_of_eq (by rw [blocks, blocks, e])) ha.2⟩
  | .dec .., .dec .., hs, ha =>
    obtain ⟨rfl, rfl, rfl, rfl⟩ := hs
    exact ha
  | .stop, .stop, _, _ => trivial

theorem rules_snd {D X O : Type} {p : Prog (D ⊕ Pair) (X ⊕ Seen) O} {L : Nat} {h : List Seen} (hp : ByRules Pair.fst L p h) :
    ByRules Pair.snd L p h := by
  induction p generalizing h with
  | ret o => trivial
  | ask x k ih =>
    cases x with
    | inl d => exact fun x => ih _ (hp x)
    | inr x => exact ⟨x.allowed_snd hp.1, fun s => ih _ (hp.2 s)⟩

theorem similar_strategy {O : Type} (p : Prog Pair Seen O) (h : List Seen) :
    (strategyOf Pair.fst p h).Similar (strategyOf Pair.snd p h) := by
  rw [strategyOf, strategyOf]
  cases residual p h with
  | ret o => trivial
  | ask x k => exact x.2

/-- All other answers are known. -/
theorem chacha_choose {D X O : Type} (g : D → X) (p : Prog (D ⊕ Pair) (X ⊕ Seen) O) {L q n : Nat} (hL : L < 2 ^ 32) (hc : p.Counts q n)
    (hp : ByRules Pair.fst L p []) (acc : O → Prop) :
    share (fun F : Bytes 12 × U32 → Bytes 64 => acc (p.run (sideAnswer g fun x => chachaPoly.answer F x.fst))) ≤
      share (fun F : Bytes 12 × U32 → Bytes 64 => acc (p.run (sideAnswer g fun x => chachaPoly.answer F x.snd))) + 2 * chachaForgery L n := by
  classical
  let p' := strip g p
  have hw : p'.Within n := strip_within _ hc
  have h := C107_chacha_decryption (strategyOf Pair.fst p') (strategyOf Pair.snd p') L n (proper_strategy _ L _ hp)
    (proper_strategy _ L _ (rules_snd hp)) hL (similar_strategy p') fun h => ∃ o, residual p' h = .ret o ∧ acc o
  have h := share_of_cards (by norm_num) h
  have e : ∀ (f : Pair → Ask) (F : Bytes 12 × U32 → Bytes 64),
      (∃ o, residual p' (chachaPoly.play (strategyOf f p') F n) = .ret o ∧ acc o) ↔
        acc (p.run (sideAnswer g fun x => chachaPoly.answer F (f x))) := by
    intro f F
    rw [residual_play chachaPoly f F p' hw, ← run_strip]
    exact ⟨fun ⟨o, h, ha⟩ => (Prog.ret.inj h) ▸ ha, fun h => ⟨_, rfl, h⟩⟩
  rw [share_congr (e Pair.fst), share_congr (e Pair.snd)] at h
  refine h.trans (le_of_eq ?_)
  rw [chachaForgery]
  push_cast
  ring

theorem chacha_choice {O : Type} (p : ChaChaAttack Pair O) {L q n : Nat} (hL : L < 2 ^ 32) (hc : p.Counts q n) (hp : ByRules Pair.fst L p [])
    (acc : O → Prop) :
    share (fun ω : Equiv.Perm (Words 32 16) × (Bytes 12 × U32 → Bytes 64) => acc (p.run (bothAnswer ω.1 fun x => chachaPoly.answer ω.2 x.fst))) ≤
      share (fun ω : Equiv.Perm (Words 32 16) × (Bytes 12 × U32 → Bytes 64) =>
        acc (p.run (bothAnswer ω.1 fun x => chachaPoly.answer ω.2 x.snd))) + 2 * chachaForgery L n := by
  classical
  exact share_prod_add fun π => chacha_choose (Dir.answer fun _ => π) p hL hc hp acc

/-- **C116.**  Whoever asks for encryptions with two messages of one length each time, and for decryptions, cannot tell which of the
messages are encrypted. -/
theorem C116_privacy {O : Type} (p : ChaChaAttack Pair O) (L q n : Nat) (hL : L < 2 ^ 32) (hc : p.Counts q n) (hp : ByRules Pair.fst L p [])
    (acc : O → Prop) :
    |share (fun ω : Equiv.Perm (Words 32 16) × Bytes 32 => acc (p.run (bothAnswer ω.1 fun x => chachaPolyOf.answer ω x.fst))) -
      share (fun ω : Equiv.Perm (Words 32 16) × Bytes 32 => acc (p.run (bothAnswer ω.1 fun x => chachaPolyOf.answer ω x.snd)))| ≤
      2 * (chachaForgery L n + blockBound q (n * L)) := by
  have a1 := abs_le.mp (aead_le Pair.fst hL hc hp acc)
  have a2 := abs_le.mp (aead_le Pair.snd hL hc (rules_snd hp) acc)
  have b1 := chacha_choice p hL hc hp acc
  have b2 := chacha_choice p hL hc hp fun o => ¬ acc o
  rw [share_sub, share_sub] at b2
  rw [abs_le]
  constructor <;> linarith [a1.1, a1.2, a2.1, a2.2]

/-- A choice between two messages; the guess is made by computing the first block for the key 0. -/
def guessAttack : ChaChaAttack Pair Bool :=
  .ask (.inr ⟨(.enc zeroIv [1] [0, 0], .enc zeroIv [1] [1, 2]), rfl, rfl, rfl⟩) fun s =>
    .ask (.inl (.fwd () (chachaState ⟨List.replicate 32 0, List.length_replicate⟩ (zeroIv, 1)))) fun r =>
      .ret (match s, r with
        | .inr (.enc _ _ c _), .inl w => decide (c = (chachaOut ⟨List.replicate 32 0, List.length_replicate⟩ (zeroIv, 1) w).1.take 2)
        | _, _ => false)

theorem guessAttack_counts : guessAttack.Counts 1 1 := ⟨0, rfl, fun _ => ⟨0, rfl, fun _ => trivial⟩⟩

theorem guessAttack_rules : ByRules Pair.fst 3 guessAttack [] :=
  ⟨⟨fun _ _ _ h => absurd h List.not_mem_nil, by decide⟩, fun _ _ => trivial⟩

example := C116_privacy guessAttack 3 1 1 (by norm_num) guessAttack_counts guessAttack_rules (fun b => b = true)

/-- An encryption, then a decryption with one byte more at the front of the data. -/
def prependAttack : ChaChaAttack Ask Unit :=
  .ask (.inr (.enc zeroIv [1] [2, 3, 4])) fun
    | .inr (.enc iv aad c t) =>
      if h : t.length = 16 ∧ blocks (0 :: aad) c ≤ 3 then .ask (.inr (.dec iv (0 :: aad) c ⟨t, h.1⟩)) fun _ => .ret () else .ret ()
    | _ => .ret ()

example : share (fun ω : Equiv.Perm (Words 32 16) × Bytes 32 => Decrypted (prependAttack.answers (bothAnswer ω.1 (chachaPolyOf.answer ω)))) ≤
    chachaForgery 3 2 + blockBound 0 (2 * 3) := by
  refine C116_forgery prependAttack 3 0 2 (by norm_num) ⟨1, rfl, fun s => ?_⟩
    ⟨⟨fun _ _ _ h => absurd h List.not_mem_nil, by decide⟩, fun s => ?_⟩
  · match s with
    | .inl _ | .inr (.dec ..) | .inr .failed | .inr .stopped => trivial
    | .inr (.enc iv aad c t) =>
      dsimp only
      split
      · exact ⟨0, rfl, fun _ => trivial⟩
      · trivial
  · match s with
    | .dec .. | .failed | .stopped => trivial
    | .enc iv aad c t =>
      dsimp only
      split
      · rename_i h
        refine ⟨⟨?_, h.2⟩, fun _ => trivial⟩
        simp
      · trivial

/-- `2¹⁰⁰` questions to the permutation; `2²⁰` messages of `2¹⁶` bytes. -/
example : chachaForgery (2 ^ 12) (2 ^ 20) + blockBound (2 ^ 100) (2 ^ 20 * 2 ^ 12) < 1 / 2 ^ 49 := by
  rw [chachaForgery, blockBound, show (2 : ℚ) ^ 513 = (2 ^ 171) ^ 3 from by rw [← pow_mul]]
  norm_num

end Hacspec.Props
