import Verif.Lemmas.Ideal.Forging
import Verif.Props.IdealHashes
import Verif.Props.Hmacs

/-! # C113: HMAC-SHA-256 with a random block cipher inside SHA-256 -/

namespace Hacspec.Props

open Spec Hacspec.Ideal Finset

/-- **C113.**  `schedule` and `shuffle` are one of these ciphers: with it, the attacked function is `hmac`. -/
theorem C113_code : ∃ E : Bytes 64 → Equiv.Perm (Words 32 8),
    (∀ b s, (Hacspec.Sha2.schedule b.1 >>= fun ws => Hacspec.Sha2.shuffle ws s.1) = .ok (E b s).1) ∧
    ∀ k m : List U8, k.length ≤ 64 → 64 + m.length < 2 ^ 61 → Hacspec.Ideal.hmac E k m = Hacspec.Hmac.hmac k m := by
  obtain ⟨E, h1, h2⟩ := C109_code
  refine ⟨E, h1, fun k m hk hm => ?_⟩
  rw [← Hacspec.Hmac.hmacWith_hash]
  exact Hacspec.Hmac.hmacWith_congr (sha_hashOf E) (length_hashOf E) h2 hk hm

instance instNonemptyState : Nonempty (Words 32 8) := ⟨shaStart⟩

instance instNonemptyBytes (n : Nat) : Nonempty (Bytes n) := ⟨⟨List.replicate n 0, List.length_replicate⟩⟩

/-- The answers, from states. -/
noncomputable def macAnswerOf {Z : Type} : Dir (Bytes 64) (Words 32 8) ⊕ Z → Words 32 8 → Words 32 8 ⊕ M (List U8)
  | .inl _, s => .inl s
  | .inr _, s => .inr (.ok (digestOf s).1)

theorem share_ideal_digest {Z O : Type} [Fintype Z] [DecidableEq Z]
    (p : Prog (Dir (Bytes 64) (Words 32 8) ⊕ Z) (Words 32 8 ⊕ M (List U8)) O) (acc : O → Prop) :
    share (fun ω : (Bytes 64 → Equiv.Perm (Words 32 8)) × (Z → Words 32 8) => acc ((via macAnswerOf p).run (evIdeal ω))) =
      share (fun ω : (Bytes 64 → Equiv.Perm (Words 32 8)) × (Z → Bytes 32) => acc (p.run (macAnswer ω.1 fun m => .ok (ω.2 m).1))) := by
  rw [← share_equiv (Equiv.prodCongr (Equiv.refl (Bytes 64 → Equiv.Perm (Words 32 8)))
    (Equiv.arrowCongr (Equiv.refl Z) (Equiv.ofBijective digestOf digestOf_bij)))]
  refine share_congr fun ω => ?_
  rw [run_via]
  have e : (fun x => macAnswerOf x (evIdeal ω x)) = macAnswer ω.1 fun m : Z => .ok (digestOf (ω.2 m)).1 := by
    funext x
    cases x <;> rfl
  rw [e]
  rfl

theorem card_key (n : Nat) : (Fintype.card (Bytes n) : ℚ) = 2 ^ (8 * n) := by
  rw [card_bytes, show 256 = 2 ^ 8 from rfl, ← Nat.pow_mul, Nat.cast_pow, Nat.cast_ofNat]

theorem card_state : (Fintype.card (Words 32 8) : ℚ) = 2 ^ 256 := by
  rw [card_states, Nat.cast_pow, Nat.cast_ofNat]

/-- Nested authentication with the parts of `hmac`. -/
noncomputable def hmacState {n : Nat} (hn : n ≤ 64) (whole : Bool) (ℓ : Nat) (ω : (Bytes 64 → Equiv.Perm (Words 32 8)) × Bytes n) :
    Dir (Bytes 64) (Words 32 8) ⊕ Texts whole ℓ → Words 32 8 :=
  evReal addWords (padKey 0x36#8 hn) (padKey 0x5c#8 hn) shaStart outerBlock (fun z : Texts whole ℓ => restKeys z.1) ω

theorem hmac_state_le {whole : Bool} {ℓ n : Nat} (hn : n ≤ 64) (hℓ : ℓ < 2 ^ 54) {O : Type}
    {p : Prog (Dir (Bytes 64) (Words 32 8) ⊕ Texts whole ℓ) (Words 32 8) O} {q a : Nat}
    (hp : p.Counts q a) (hT : q + a * ℓ < 2 ^ 256) (acc : O → Prop) :
    share (fun ω : (Bytes 64 → Equiv.Perm (Words 32 8)) × Bytes n => acc (p.run (hmacState hn whole ℓ ω))) ≤
      share (fun ω : (Bytes 64 → Equiv.Perm (Words 32 8)) × (Texts whole ℓ → Words 32 8) => acc (p.run (evIdeal ω))) +
        prfBound n (q + a * ℓ) a := by
  have hbl : ∀ z : Texts whole ℓ, (restKeys z.1).length ≤ ℓ := fun z => length_restKeys z.2.1
  have hinj : Function.Injective fun z : Texts whole ℓ => restKeys z.1 := fun z z' h => by
    have h1 := z.2.1
    have h2 := z'.2.1
    exact Subtype.ext (restKeys_inj (by omega) (by omega) (z.2.2.trans z'.2.2.symm) h)
  have h1 := share_real_hidden (op := addWords) (dv := subWords) (ki := padKey 0x36#8 hn) (ko := padKey 0x5c#8 hn) (iv := shaStart)
    outerBlock (fun z : Texts whole ℓ => restKeys z.1) sub_add (padKey_ne hn) (fun x y y' => addWords_right x y y')
    (fun x y y' => addWords_left x y y') (padKey_inj _ hn) (padKey_inj _ hn) hbl hp acc
  have h2 := share_hidden_ideal (op := addWords) (ob := outerBlock) (bl := fun z : Texts whole ℓ => restKeys z.1)
    (fun x y y' => addWords_right x y y') (fun x y y' => addWords_left x y y') outerBlock_inj hinj hbl hp
    (by rw [card_states]; exact hT) acc
  rw [card_key, card_state] at h1
  rw [card_state] at h2
  rw [prfBound]
  calc _ ≤ _ := h1
    _ ≤ _ := add_le_add_left h2 _
    _ = _ := by push_cast; ring

theorem hmac_le {whole : Bool} {ℓ n : Nat} (hn : n ≤ 64) (hℓ : ℓ < 2 ^ 54) {O : Type} {p : MacAttack whole ℓ O} {q a : Nat}
    (hp : p.Counts q a) (hT : q + a * ℓ < 2 ^ 256) (acc : O → Prop) :
    share (fun ω : (Bytes 64 → Equiv.Perm (Words 32 8)) × Bytes n =>
        acc (p.run (macAnswer ω.1 fun m => Hacspec.Ideal.hmac ω.1 ω.2.1 m.1))) ≤
      share (fun ω : (Bytes 64 → Equiv.Perm (Words 32 8)) × (Texts whole ℓ → Bytes 32) =>
        acc (p.run (macAnswer ω.1 fun m => .ok (ω.2 m).1))) + prfBound n (q + a * ℓ) a := by
  have e1 : share (fun ω : (Bytes 64 → Equiv.Perm (Words 32 8)) × Bytes n =>
        acc (p.run (macAnswer ω.1 fun m => Hacspec.Ideal.hmac ω.1 ω.2.1 m.1))) =
      share (fun ω : (Bytes 64 → Equiv.Perm (Words 32 8)) × Bytes n => acc ((via macAnswerOf p).run (hmacState hn whole ℓ ω))) := by
    refine share_congr fun ω => ?_
    rw [run_via]
    have e : (macAnswer ω.1 fun m : Texts whole ℓ => Hacspec.Ideal.hmac ω.1 ω.2.1 m.1) =
        fun x => macAnswerOf x (hmacState hn whole ℓ ω x) := by
      funext x
      cases x with
      | inl d => rfl
      | inr m =>
        have hm := m.2.1
        show Sum.inr (Hacspec.Ideal.hmac ω.1 ω.2.1 m.1) = _
        rw [hmac_nested ω.1 hn ω.2 (m := m.1) (by omega)]
        rfl
    rw [e]
  rw [e1, ← share_ideal_digest]
  exact hmac_state_le hn hℓ (via_counts _ hp) hT acc

/-- **C113.**  Tags are like random strings: whoever asks the cipher `q` times and for the tags of `a` messages of at most `ℓ` blocks
decides for the code with a random key of `n` bytes and a random cipher as often as for a random function of the messages, up to
`prfBound`. -/
theorem C113_prf {whole : Bool} {ℓ n : Nat} (hn : n ≤ 64) (hℓ : ℓ < 2 ^ 54) {O : Type} (p : MacAttack whole ℓ O) (q a : Nat)
    (hp : p.Counts q a) (hT : q + a * ℓ < 2 ^ 256) (acc : O → Prop) :
    |share (fun ω : (Bytes 64 → Equiv.Perm (Words 32 8)) × Bytes n =>
        acc (p.run (macAnswer ω.1 fun m => Hacspec.Ideal.hmac ω.1 ω.2.1 m.1))) -
      share (fun ω : (Bytes 64 → Equiv.Perm (Words 32 8)) × (Texts whole ℓ → Bytes 32) =>
        acc (p.run (macAnswer ω.1 fun m => .ok (ω.2 m).1)))| ≤ prfBound n (q + a * ℓ) a := by
  have h1 := hmac_le hn hℓ hp hT acc
  have h2 := hmac_le hn hℓ hp hT fun o => ¬ acc o
  rw [share_sub, share_sub] at h2
  rw [abs_le]
  constructor <;> linarith

/-- An attack that asks the cipher once and for two tags, one of them depending on the first answer. -/
def macAttack : MacAttack false 2 Bool :=
  .ask (.inl (.fwd ⟨List.replicate 64 0, List.length_replicate⟩ shaStart)) fun r =>
    .ask (.inr ⟨[1], by decide, by decide⟩) fun t =>
      .ask (.inr ⟨match r with | .inl s => (if s = shaStart then [2] else [3]) | .inr _ => [4], by
        split
        · split <;> decide
        · decide, by
        split
        · split <;> decide
        · decide⟩) fun t' =>
        .ret (match t, t' with | .inr (.ok d), .inr (.ok d') => d = d' | _, _ => false)

theorem macAttack_counts : macAttack.Counts 1 2 := ⟨0, rfl, fun _ => ⟨1, rfl, fun _ => ⟨0, rfl, fun _ => trivial⟩⟩⟩

example := C113_prf (n := 32) (by decide) (by decide) macAttack 1 2 macAttack_counts (by decide) (fun b => b = true)

/-- `2¹⁰⁰` questions with keys of 32 bytes. -/
example : prfBound 32 (2 ^ 100) (2 ^ 40) < 1 / 2 ^ 56 := by
  rw [prfBound]
  norm_num

/-- **C113.**  Forgeries: with so many questions, the tag of a message that was not asked for is found for at most
`1/2²⁵⁶ + prfBound` of the keys and ciphers. -/
theorem C113_forgery {whole : Bool} {ℓ n : Nat} (hn : n ≤ 64) (hℓ : ℓ < 2 ^ 54) (p : MacAttack whole ℓ (Texts whole ℓ × List U8)) (q a : Nat)
    (hp : p.Counts q a) (hT : q + (a + 1) * ℓ < 2 ^ 256) :
    share (fun ω : (Bytes 64 → Equiv.Perm (Words 32 8)) × Bytes n =>
        ForgesTag (macAnswer ω.1 fun m => Hacspec.Ideal.hmac ω.1 ω.2.1 m.1) p) ≤
      1 / 2 ^ 256 + prfBound n (q + (a + 1) * ℓ) (a + 1) := by
  let ok : Words 32 8 ⊕ M (List U8) → List U8 → Prop := fun r t => r = .inr (.ok t)
  have h := hmac_le hn hℓ (check_counts ok hp []) hT id
  have e : ∀ ev, (check ok p []).run ev ↔ ForgesTag ev p := by
    intro ev
    rw [run_check, ForgesTag]
    simp [ok]
  refine le_trans (le_of_eq (share_congr fun ω => (e _).symm)) (h.trans (add_le_add_left ?_ _))
  refine share_prod_le (by positivity) fun E => ?_
  have hc : (2 : ℚ) ^ 256 = Fintype.card (Bytes 32) := by rw [card_key]
  rw [hc]
  refine le_trans (le_of_eq (share_congr fun R => e _)) ?_
  let ev : (Texts whole ℓ → Bytes 32) → _ := fun R => macAnswer E fun m => .ok (R m).1
  have key : ∀ f v, ForgesTag (ev f) p → p.run (ev (Function.update f (p.run (ev f)).1 v)) = p.run (ev f) := by
    intro f v hf
    refine (run_same p fun x hx => ?_).symm
    cases x with
    | inl d => rfl
    | inr m =>
      have : m ≠ (p.run (ev f)).1 := fun h => hf.1 (h ▸ hx)
      show (Sum.inr (.ok (f m).1) : Words 32 8 ⊕ M (List U8)) = Sum.inr (.ok (Function.update f (p.run (ev f)).1 v m).1)
      rw [Function.update_of_ne this]
  refine share_guess (P := fun f => ForgesTag (ev f) p) (fun f => (p.run (ev f)).1) (fun f v hf => by rw [key f v hf]) ?_
  intro f v hf hf'
  have h1 := hf.2
  have h2 := hf'.2
  rw [key f v hf, ← h1] at h2
  have h2 : (Sum.inr (.ok (Function.update f (p.run (ev f)).1 v (p.run (ev f)).1).1) : Words 32 8 ⊕ M (List U8)) =
    Sum.inr (.ok (f (p.run (ev f)).1).1) := h2
  rw [Function.update_self] at h2
  injection h2 with h2
  injection h2 with h2
  exact Subtype.ext h2

/-- An attack that asks for one tag and returns it for another message. -/
def forgeAttack : MacAttack false 1 (Texts false 1 × List U8) :=
  .ask (.inr ⟨[1], by decide, by decide⟩) fun t => .ret (⟨[2], by decide, by decide⟩, match t with | .inr (.ok d) => d | _ => [])

example := C113_forgery (n := 16) (by decide) (by decide) forgeAttack 0 1 ⟨0, rfl, fun _ => trivial⟩ (by decide)

/-- Without the restriction to messages of one kind the claim is false: for every message that is not whole blocks there is another
one that has the same tag, whatever the key and the cipher are. -/
theorem C113_mixed_refuted (m : List U8) (h : m.length % 64 ≠ 0) (hm : 192 + m.length < 2 ^ 61) :
    ∃ m', m' ≠ m ∧ ∀ (E : Bytes 64 → Equiv.Perm (Words 32 8)) (k : List U8), k.length ≤ 64 →
      ∃ d, Hacspec.Ideal.hmac E k m' = .ok d ∧ Hacspec.Ideal.hmac E k m = .ok d := by
  have hz : (afterKey m).length % 64 = 0 := length_afterKey m
  have hl : (afterKey m).length ≤ m.length + 128 := by
    rw [afterKey, if_neg h]
    simp only [bytesBe64, List.length_append, List.length_cons, List.length_nil, List.length_replicate]; omega
  refine ⟨afterKey m, fun e => h (by rw [← e]; exact hz), fun E k hk => ?_⟩
  have e : restKeys (afterKey m) = restKeys m := by
    refine List.map_injective_iff.mpr Subtype.val_injective ?_
    rw [map_restKeys, map_restKeys, afterKey, if_pos hz]
  refine ⟨_, hmac_nested E hk ⟨k, rfl⟩ (by omega), ?_⟩
  rw [hmac_nested E hk ⟨k, rfl⟩ (m := m) (by omega), nested, nested, e]

example := C113_mixed_refuted [1] (by decide) (by decide)

end Hacspec.Props
