import Verif.Lemmas.Ideal.Prefixed
import Verif.Props.IdealMacs
import Verif.Props.Indifferents
import Verif.Props.HashStructure
import Verif.Props.Sha256s

/-! # C130: a key before the text

With SHA-3 and SHAKE this gives tags like random strings; with `sha256::hash` and `blake2b` tags can be forged. -/

namespace Hacspec.Props

open Spec Hacspec.Ideal Finset

/-- A text that is hashed after `n` bytes of a key, together at most `ℓ` blocks. -/
abbrev KeyedText (rate ℓ n : Nat) : Type := {m : List U8 // (n + m.length) / rate + 1 ≤ ℓ}

instance instFiniteKeyedText (rate ℓ n : Nat) [NeZero rate] : Finite (KeyedText rate ℓ n) :=
  ((List.finite_length_lt U8 (rate * ℓ)).subset (fun m (h : (n + m.length) / rate + 1 ≤ ℓ) => by
    have h1 := Nat.div_add_mod (n + m.length) rate
    have h2 := Nat.mod_lt (n + m.length) (Nat.pos_of_neZero rate)
    have h3 := Nat.mul_le_mul_left rate h
    show m.length < rate * ℓ
    rw [Nat.mul_add] at h3
    omega)).to_subtype

noncomputable instance instFintypeKeyedText (rate ℓ n : Nat) [NeZero rate] : Fintype (KeyedText rate ℓ n) := Fintype.ofFinite _

/-- A text and a number of bytes, at most `J` blocks. -/
abbrev KeyedRequest (rate ℓ n J : Nat) : Type := KeyedText rate ℓ n × Fin (J * rate + 1)

/-- Whoever attacks asks about the permutation and about outputs for texts after the key. -/
abbrev KeyedAttack (rate ℓ n J : Nat) (O : Type) : Type :=
  Prog (Dir Unit (Words 64 25) ⊕ KeyedRequest rate ℓ n J) (Words 64 25 ⊕ M (List U8)) O

/-- The first bytes of the blocks of a text. -/
def textOutput {rate ℓ n J : Nat} (H : KeyedText rate ℓ n × Fin J → Bytes rate) (z : KeyedRequest rate ℓ n J) : List U8 :=
  ((List.finRange J).flatMap fun j => (H (z.1, j)).1).take z.2

/-- For `q` questions about the permutation, `N` applications of it altogether and keys of `n` bytes:
`(N(N+1) + q(q+1))/2^(8(200-rate)) + q/2⁸ⁿ`. -/
def keyedSpongeBound (rate n q N : Nat) : ℚ := (N * (N + 1) + q * (q + 1)) / 256 ^ (200 - rate) + q / 2 ^ (8 * n)

/-- The text after the key. -/
def afterSecret {rate ℓ n : Nat} {p : U8} (hp : p ≠ 0#8 ∧ p < 128#8) (key : Bytes n) (m : KeyedText rate ℓ n) : Message rate ℓ :=
  ⟨(p, key.1 ++ m.1), hp.1, hp.2, by rw [List.length_append, key.2]; exact m.2⟩

theorem afterSecret_inj {rate ℓ n : Nat} {p : U8} (hp : p ≠ 0#8 ∧ p < 128#8) {key key' : Bytes n} {m m' : KeyedText rate ℓ n}
    (h : afterSecret hp key m = afterSecret hp key' m') : key = key' ∧ m = m' := by
  have h1 : key.1 ++ m.1 = key'.1 ++ m'.1 := congrArg (fun z : Message rate ℓ => z.1.2) h
  obtain ⟨h2, h3⟩ := List.append_inj h1 (key.2.trans key'.2.symm)
  exact ⟨Subtype.ext h2, Subtype.ext h3⟩

theorem keyed_le (rate ℓ J n : Nat) [NeZero rate] (hr2 : rate ≤ 200) (hℓ : ℓ ≤ 2 ^ 55) {p : U8} (hp : p ≠ 0#8 ∧ p < 128#8) {O : Type}
    {a : KeyedAttack rate ℓ n J O} {q r N : Nat} (ha : a.Counts q r) (hN : N = q + r * (ℓ + (J - 1))) (acc : O → Prop) :
    share (fun ω : Equiv.Perm (Words 64 25) × Bytes n =>
        acc (a.run (bothAnswer ω.1 fun z => sponge ω.1 rate (ω.2.1 ++ z.1.1) p z.2))) ≤
      share (fun ω : Equiv.Perm (Words 64 25) × (KeyedText rate ℓ n × Fin J → Bytes rate) =>
        acc (a.run (bothAnswer ω.1 fun z => .ok (textOutput ω.2 z)))) + keyedSpongeBound rate n q N := by
  classical
  obtain ⟨sim, hs, hsim⟩ := C125_indifferentiable rate ℓ J hr2 hℓ
  let put : Bytes n → KeyedRequest rate ℓ n J → Request rate ℓ J := fun key z => (afterSecret hp key z.1, z.2)
  let emb : Bytes n → KeyedText rate ℓ n × Fin J → Message rate ℓ × Fin J := fun key y => (afterSecret hp key y.1, y.2)
  let G : (KeyedText rate ℓ n × Fin J → Bytes rate) → KeyedRequest rate ℓ n J → M (List U8) := fun H z => .ok (textOutput H z)
  let yes : Option Bool → Prop := fun o => o = some true
  -- from the permutation to the simulator
  have h1 : share (fun ω : Equiv.Perm (Words 64 25) × Bytes n =>
        acc (a.run (bothAnswer ω.1 fun z => sponge ω.1 rate (ω.2.1 ++ z.1.1) p z.2))) ≤
      share (fun ω : (Blocks rate ℓ J × Bytes n) × (Fin q → Words 64 25) =>
        yes (sim.run ω.1.1 (G fun y => ω.1.1 (emb ω.1.2 y)) (judge acc a) (List.ofFn ω.2) sim.start)) +
        N * (N + 1) * (1 / 256 ^ (200 - rate)) := by
    rw [← share_swap fun ω : Equiv.Perm (Words 64 25) × Bytes n =>
        acc (a.run (bothAnswer ω.1 fun z => sponge ω.1 rate (ω.2.1 ++ z.1.1) p z.2)),
      ← share_equiv (⟨fun ω => ((ω.2.1, ω.1), ω.2.2), fun ω => (ω.1.2, (ω.1.1, ω.2)), fun _ => rfl, fun _ => rfl⟩ :
        Bytes n × (Blocks rate ℓ J × (Fin q → Words 64 25)) ≃ (Blocks rate ℓ J × Bytes n) × (Fin q → Words 64 25))]
    refine share_prod_add fun key => ?_
    have h := (abs_le.mp (hsim (relabel (put key) (judge acc a)) q r N (relabel_counts _ (judge_counts acc ha)) hN)).2
    have e1 : share (fun π : Equiv.Perm (Words 64 25) => (relabel (put key) (judge acc a)).run (spongeAnswer π) = true) =
        share (fun π : Equiv.Perm (Words 64 25) => acc (a.run (bothAnswer π fun z => sponge π rate (key.1 ++ z.1.1) p z.2))) := by
      refine share_congr fun π => ?_
      rw [run_relabel, run_judge]
      have e : (fun x => spongeAnswer π (Sum.map id (put key) x)) = bothAnswer π fun z => sponge π rate (key.1 ++ z.1.1) p z.2 := by
        funext x
        cases x <;> rfl
      rw [e]
    have e2 : share (fun ω : Blocks rate ℓ J × (Fin q → Words 64 25) =>
          sim.run ω.1 (fun z => .ok (blocksOutput ω.1 z)) (relabel (put key) (judge acc a)) (List.ofFn ω.2) sim.start = some true) =
        share (fun ω : Blocks rate ℓ J × (Fin q → Words 64 25) =>
          yes (sim.run ω.1 (G fun y => ω.1 (emb key y)) (judge acc a) (List.ofFn ω.2) sim.start)) := by
      refine share_congr fun ω => ?_
      rw [sim_relabel]
      rfl
    rw [e1, e2] at h
    show _ ≤ share (fun ω : Blocks rate ℓ J × (Fin q → Words 64 25) =>
          yes (sim.run ω.1 (G fun y => ω.1 (emb key y)) (judge acc a) (List.ofFn ω.2) sim.start)) + _
    linarith
  -- to another random function
  have h2 := share_prefixed sim hs emb (fun key y y' h => Prod.ext (afterSecret_inj hp (congrArg Prod.fst h)).2 (congrArg (fun y : Message rate ℓ × Fin J => y.2) h))
    (fun key key' y y' h => (afterSecret_inj hp (congrArg Prod.fst h)).1) G (m := q) (judge_counts acc ha) yes
  -- and back to the permutation
  have h3 : share (fun ω : (Blocks rate ℓ J × (KeyedText rate ℓ n × Fin J → Bytes rate)) × (Fin q → Words 64 25) =>
        yes (sim.run ω.1.1 (G ω.1.2) (judge acc a) (List.ofFn ω.2) sim.start)) ≤
      share (fun ω : Equiv.Perm (Words 64 25) × (KeyedText rate ℓ n × Fin J → Bytes rate) =>
        acc (a.run (bothAnswer ω.1 fun z => .ok (textOutput ω.2 z)))) + q * (q + 1) * (1 / 256 ^ (200 - rate)) := by
    rw [← share_swap fun ω : Equiv.Perm (Words 64 25) × (KeyedText rate ℓ n × Fin J → Bytes rate) =>
        acc (a.run (bothAnswer ω.1 fun z => .ok (textOutput ω.2 z))),
      ← share_equiv (⟨fun ω => ((ω.2.1, ω.1), ω.2.2), fun ω => (ω.1.2, (ω.1.1, ω.2)), fun _ => rfl, fun _ => rfl⟩ :
        (KeyedText rate ℓ n × Fin J → Bytes rate) × (Blocks rate ℓ J × (Fin q → Words 64 25)) ≃
          (Blocks rate ℓ J × (KeyedText rate ℓ n × Fin J → Bytes rate)) × (Fin q → Words 64 25))]
    refine share_prod_add fun H => ?_
    have h := (abs_le.mp (hsim (settle (G H) (judge acc a)) q 0 q (settle_counts _ (judge_counts acc ha)) (by omega))).1
    have e1 : share (fun π : Equiv.Perm (Words 64 25) => (settle (G H) (judge acc a)).run (spongeAnswer (rate := rate) (ℓ := ℓ) (J := J) π) = true) =
        share (fun π : Equiv.Perm (Words 64 25) => acc (a.run (bothAnswer π (G H)))) := by
      refine share_congr fun π => ?_
      have e : spongeAnswer (rate := rate) (ℓ := ℓ) (J := J) π =
          bothAnswer π fun z : Request rate ℓ J => sponge π rate z.1.1.2 z.1.1.1 z.2 := by
        funext x
        cases x <;> rfl
      rw [e, run_settle, run_judge]
    have e2 : share (fun ω : Blocks rate ℓ J × (Fin q → Words 64 25) =>
          sim.run ω.1 (fun z : Request rate ℓ J => .ok (blocksOutput ω.1 z)) (settle (G H) (judge acc a)) (List.ofFn ω.2) sim.start = some true) =
        share (fun ω : Blocks rate ℓ J × (Fin q → Words 64 25) => yes (sim.run ω.1 (G H) (judge acc a) (List.ofFn ω.2) sim.start)) := by
      refine share_congr fun ω => ?_
      rw [sim_settle]
    rw [e1, e2] at h
    show share (fun ω : Blocks rate ℓ J × (Fin q → Words 64 25) => yes (sim.run ω.1 (G H) (judge acc a) (List.ofFn ω.2) sim.start)) ≤
      share (fun π : Equiv.Perm (Words 64 25) => acc (a.run (bothAnswer π (G H)))) + _
    linarith
  rw [card_key] at h2
  rw [keyedSpongeBound]
  have h4 : ((N : ℚ) * (N + 1) + q * (q + 1)) / 256 ^ (200 - rate) =
      N * (N + 1) * (1 / 256 ^ (200 - rate)) + q * (q + 1) * (1 / 256 ^ (200 - rate)) := by ring
  rw [h4]
  linarith

/-- **C130.**  SHA-3 or SHAKE of a key of `n` bytes followed by a text is like a random function of the text: with `q` questions about
the permutation and `r` requests for outputs, of at most `J` blocks, for texts that are with the key at most `ℓ` blocks, anything is
found as often, up to `keyedSpongeBound`. -/
theorem C130_prf (rate ℓ J n : Nat) [NeZero rate] (hr2 : rate ≤ 200) (hℓ : ℓ ≤ 2 ^ 55) (p : U8) (hp : p ≠ 0#8 ∧ p < 128#8) {O : Type}
    (a : KeyedAttack rate ℓ n J O) (q r N : Nat) (ha : a.Counts q r) (hN : N = q + r * (ℓ + (J - 1))) (acc : O → Prop) :
    |share (fun ω : Equiv.Perm (Words 64 25) × Bytes n =>
        acc (a.run (bothAnswer ω.1 fun z => sponge ω.1 rate (ω.2.1 ++ z.1.1) p z.2))) -
      share (fun ω : Equiv.Perm (Words 64 25) × (KeyedText rate ℓ n × Fin J → Bytes rate) =>
        acc (a.run (bothAnswer ω.1 fun z => .ok (textOutput ω.2 z))))| ≤ keyedSpongeBound rate n q N := by
  have h1 := keyed_le rate ℓ J n hr2 hℓ hp ha hN acc
  have h2 := keyed_le rate ℓ J n hr2 hℓ hp ha hN fun o => ¬ acc o
  rw [share_sub, share_sub] at h2
  rw [abs_le]
  constructor <;> linarith

/-- An attack that asks for the output for one text, then applies the permutation to a state, and compares. -/
def prefixAttack (x : Words 64 25) (test : Words 64 25 → List U8 → Bool) : KeyedAttack 136 2 32 1 Bool :=
  .ask (.inr (⟨[1, 2, 3], by decide⟩, 32)) fun o => .ask (.inl (.bwd () x)) fun y => .ret (match y, o with
    | .inl y, .inr (.ok o) => test y o
    | _, _ => false)

theorem prefixAttack_counts (x : Words 64 25) (test : Words 64 25 → List U8 → Bool) : (prefixAttack x test).Counts 1 1 :=
  ⟨0, rfl, fun _ => ⟨0, rfl, fun _ => trivial⟩⟩

/-- SHA3-256 with keys of 32 bytes. -/
example (x : Words 64 25) (test : Words 64 25 → List U8 → Bool) :=
  C130_prf 136 2 1 32 (by norm_num) (by norm_num) 6#8 (by decide) (prefixAttack x test) 1 1 3 (prefixAttack_counts x test) (by norm_num)
    (fun b => b = true)

/-- `2⁸⁰` questions about the permutation and `2¹⁰⁰` applications in all. -/
example : keyedSpongeBound 136 32 (2 ^ 80) (2 ^ 100) < 1 / 2 ^ 175 := by
  rw [keyedSpongeBound, show 200 - 136 = 64 from rfl, show (256 : ℚ) ^ 64 = (2 ^ 128) ^ 4 by norm_num, show 8 * 32 = 128 * 2 from rfl, pow_mul]
  norm_num

/-! ## Tags -/

/-- Whoever attacks asks about the permutation and for tags of texts. -/
abbrev KeyedTagAttack (rate ℓ n : Nat) (O : Type) : Type :=
  Prog (Dir Unit (Words 64 25) ⊕ KeyedText rate ℓ n) (Words 64 25 ⊕ M (List U8)) O

/-- The first bytes. -/
def firstBytes {rate t : Nat} (ht : t ≤ rate) (b : Bytes rate) : Bytes t := ⟨b.1.take t, by rw [List.length_take, b.2, Nat.min_eq_left ht]⟩

theorem share_firstBytes {Z : Type} [Fintype Z] [DecidableEq Z] {rate t : Nat} (ht : t ≤ rate) (P : (Z → Bytes t) → Prop) :
    share (fun H : Z × Fin 1 → Bytes rate => P fun z => firstBytes ht (H (z, 0))) = share P := by
  refine share_regular (C := Z → Bytes (rate - t)) (fun (H : Z × Fin 1 → Bytes rate) z => firstBytes ht (H (z, 0)))
    (fun H z => ⟨(H (z, 0)).1.drop t, by rw [List.length_drop, (H (z, 0)).2]⟩) ?_ ?_ P
  · intro H H' h
    simp only [Prod.mk.injEq] at h
    funext ⟨z, i⟩
    rw [Subsingleton.elim i 0]
    have h1 : (H (z, 0)).1.take t = (H' (z, 0)).1.take t := congrArg Subtype.val (congrFun h.1 z)
    have h2 : (H (z, 0)).1.drop t = (H' (z, 0)).1.drop t := congrArg Subtype.val (congrFun h.2 z)
    exact Subtype.ext (by rw [← List.take_append_drop t (H (z, 0)).1, h1, h2, List.take_append_drop])
  · simp only [Fintype.card_fun, Fintype.card_prod, Fintype.card_fin, card_bytes, mul_one]
    rw [← Nat.mul_pow, ← Nat.pow_add, Nat.add_sub_cancel' ht]

theorem textOutput_first {rate ℓ n t : Nat} (ht : t ≤ rate) (H : KeyedText rate ℓ n × Fin 1 → Bytes rate) (m : KeyedText rate ℓ n)
    (h : t < 1 * rate + 1) : textOutput H (m, ⟨t, h⟩) = (firstBytes ht (H (m, 0))).1 := by
  simp [textOutput, firstBytes, List.finRange_succ]

/-- **C130.**  Forgeries: with so many questions, the tag of `t` bytes for a text that was not asked for is found for at most
`1/2⁸ᵗ + keyedSpongeBound` of the keys and permutations. -/
theorem C130_forgery (rate ℓ n t : Nat) [NeZero rate] (hr2 : rate ≤ 200) (hℓ : ℓ ≤ 2 ^ 55) (ht : t ≤ rate) (p : U8)
    (hp : p ≠ 0#8 ∧ p < 128#8) (a : KeyedTagAttack rate ℓ n (KeyedText rate ℓ n × List U8)) (q r N : Nat) (ha : a.Counts q r)
    (hN : N = q + (r + 1) * ℓ) :
    share (fun ω : Equiv.Perm (Words 64 25) × Bytes n => ForgesTag (bothAnswer ω.1 fun m => sponge ω.1 rate (ω.2.1 ++ m.1) p t) a) ≤
      1 / 2 ^ (8 * t) + keyedSpongeBound rate n q N := by
  classical
  let ok : Words 64 25 ⊕ M (List U8) → List U8 → Prop := fun r t => r = .inr (.ok t)
  let tag : KeyedText rate ℓ n → KeyedRequest rate ℓ n 1 := fun m => (m, ⟨t, by omega⟩)
  have e : ∀ ev, (check ok a []).run ev ↔ ForgesTag ev a := by
    intro ev
    rw [run_check, ForgesTag]
    simp [ok]
  have h := keyed_le rate ℓ 1 n hr2 hℓ hp (a := relabel tag (check ok a [])) (relabel_counts _ (check_counts ok ha [])) hN id
  have e1 : ∀ (π : Equiv.Perm (Words 64 25)) (f : KeyedRequest rate ℓ n 1 → M (List U8)),
      (fun x => bothAnswer π f (Sum.map id tag x)) = bothAnswer π fun m => f (tag m) := by
    intro π f
    funext x
    cases x <;> rfl
  simp only [run_relabel, e1, id, e, tag, textOutput_first ht] at h
  refine h.trans (add_le_add_left ?_ _)
  refine share_prod_le (by positivity) fun π => ?_
  rw [share_firstBytes ht fun R : KeyedText rate ℓ n → Bytes t => ForgesTag (bothAnswer π fun m => .ok (R m).1) a, ← card_key]
  let ev : (KeyedText rate ℓ n → Bytes t) → _ := fun R => bothAnswer π fun m => (.ok (R m).1 : M (List U8))
  have key : ∀ f v, ForgesTag (ev f) a → a.run (ev (Function.update f (a.run (ev f)).1 v)) = a.run (ev f) := by
    intro f v hf
    refine (run_same a fun x hx => ?_).symm
    cases x with
    | inl d => rfl
    | inr m =>
      have : m ≠ (a.run (ev f)).1 := fun h => hf.1 (h ▸ hx)
      show (Sum.inr (.ok (f m).1) : Words 64 25 ⊕ M (List U8)) = Sum.inr (.ok (Function.update f (a.run (ev f)).1 v m).1)
      rw [Function.update_of_ne this]
  refine share_guess (P := fun f => ForgesTag (ev f) a) (fun f => (a.run (ev f)).1) (fun f v hf => by rw [key f v hf]) ?_
  intro f v hf hf'
  have h1 := hf.2
  have h2 := hf'.2
  rw [key f v hf, ← h1] at h2
  have h2 : (Sum.inr (.ok (Function.update f (a.run (ev f)).1 v (a.run (ev f)).1).1) : Words 64 25 ⊕ M (List U8)) =
    Sum.inr (.ok (f (a.run (ev f)).1).1) := h2
  rw [Function.update_self] at h2
  injection h2 with h2
  injection h2 with h2
  exact Subtype.ext h2

/-- An attack that asks for one tag and returns it for a longer text. -/
def extendAttack : KeyedTagAttack 136 2 32 (KeyedText 136 2 32 × List U8) :=
  .ask (.inr ⟨[1], by decide⟩) fun t => .ret (⟨[1, 2], by decide⟩, match t with | .inr (.ok d) => d | _ => [])

example := C130_forgery 136 2 32 32 (by norm_num) (by norm_num) (by norm_num) 6#8 (by decide) extendAttack 0 1 4 ⟨0, rfl, fun _ => trivial⟩
  (by norm_num)

/-- **C130.**  With `sha256::hash` in place of SHA-3 there is, for every text, another one that has the same tag whatever the key of a
given length is. -/
theorem C130_sha256 : ∃ other : Nat → List U8 → List U8, ∀ key m : List U8, (key.length + m.length) % 64 ≠ 0 →
    key.length + m.length < 2 ^ 61 → other key.length m ≠ m ∧
      ∃ d, Sha2.hash (key ++ m) = .ok d ∧ Sha2.hash (key ++ other key.length m) = .ok d := by
  refine ⟨fun n m => m ++ (Sha256.pad (List.replicate n 0 ++ m)).drop (n + m.length), fun key m h hl => ?_⟩
  have e : key ++ (m ++ (Sha256.pad (List.replicate key.length 0 ++ m)).drop (key.length + m.length)) = Sha256.pad (key ++ m) := by
    have h1 : key.length + m.length = (List.replicate key.length (0 : U8) ++ m).length := by simp
    rw [Sha256.pad, Sha256.pad, h1, List.append_assoc (List.replicate key.length (0 : U8) ++ m),
      List.append_assoc (List.replicate key.length (0 : U8) ++ m), List.drop_left]
    simp [List.append_assoc]
  obtain ⟨h1, d, h2, h3⟩ := C32_collision_refuted (key ++ m) (by rwa [List.length_append]) (by rwa [List.length_append])
  refine ⟨fun e' => h1 ?_, d, h2, by rw [e]; exact h3⟩
  rw [← e]
  exact congrArg (key ++ ·) e'

example : (32 + [1, 2, 3].length) % 64 ≠ 0 := by decide

/-- **C130.**  With `blake2b` the tag of an extended text follows from the tag of the text and the lengths, if key and text are whole
blocks. -/
theorem C130_blake2b : ∃ next : List U8 → Nat → List U8 → List U8, ∀ key m x : List U8, (key.length + m.length) % 128 = 0 →
    (key ++ m ++ x).length < 2 ^ 63 →
    ∃ d, Hacspec.Blake2.blake2b (key ++ m) = .ok d ∧ Hacspec.Blake2.blake2b (key ++ (m ++ x)) = .ok (next d (key.length + m.length) x) := by
  obtain ⟨ext, h⟩ := C74_blake2b_extension_refuted
  refine ⟨ext, fun key m x h1 h2 => ?_⟩
  obtain ⟨d, h3, h4⟩ := h (key ++ m) x (by rwa [List.length_append]) h2
  exact ⟨d, h3, by rw [← List.append_assoc, h4, List.length_append]⟩

example : (32 + (List.replicate 96 (1#8)).length) % 128 = 0 := by decide

end Hacspec.Props
