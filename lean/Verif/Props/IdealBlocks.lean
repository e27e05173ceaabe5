import Verif.Lemmas.Ideal.ChaChaPerm
import Verif.Props.ChaChas
import Verif.Props.IdealMacs
import Verif.Props.IdealSponges

/-! # C115: the blocks of ChaCha20 with a random permutation in place of the rounds -/

namespace Hacspec.Props

open Spec Hacspec.Ideal Finset

/-- **C115.**  The rounds are one of these permutations: with it, the attacked function is `block`. -/
theorem C115_code : ∃ π : Equiv.Perm (Words 32 16), (∀ s, Hacspec.ChaCha.rounds s.1 = .ok (π s).1) ∧
    ∀ (key : Bytes 32) (iv : Bytes 12) (ctr : U32), chachaBlockOf π key (iv, ctr) = Hacspec.ChaCha.block key.1 ctr iv.1 := by
  obtain ⟨π, h⟩ := perm_of_permutes (C37_rounds 10)
  refine ⟨π, h, fun key iv ctr => ?_⟩
  have hl := Hacspec.ChaCha.length_init ctr key.2 iv.2
  have e : chachaPerm π (ChaCha.init key.1 ctr iv.1) = Hacspec.ChaCha.rounds (ChaCha.init key.1 ctr iv.1) := by
    rw [chachaPerm, dif_pos hl]
    exact (h ⟨_, hl⟩).symm
  rw [← Hacspec.ChaCha.block_instance, chachaBlockOf, Hacspec.ChaCha.blockWith, Hacspec.ChaCha.blockWith, Hacspec.ChaCha.blockInnerWith,
    Hacspec.ChaCha.blockInnerWith, Hacspec.ChaCha.blockInit_ok ctr key.2 iv.2, bind_ok, bind_ok, e]

/-- Answers that return. -/
def returned {X J : Type} {n : Nat} (_ : Dir Unit X ⊕ J) : X ⊕ Bytes n → X ⊕ M (List U8)
  | .inl x => .inl x
  | .inr b => .inr (.ok b.1)

theorem returned_both {X J : Type} {n : Nat} (π : Equiv.Perm X) (f : J → Bytes n) :
    (fun x => returned x (bothAnswer π f x)) = bothAnswer π fun j => (.ok (f j).1 : M (List U8)) := by
  funext x
  cases x <;> rfl

theorem feed_le {O : Type} {p : Prog (Dir Unit (Words 32 16) ⊕ Bytes 12 × U32) (Words 32 16 ⊕ Bytes 64) O} {q a : Nat} (hp : p.Counts q a)
    (acc : O → Prop) :
    share (fun ω : Equiv.Perm (Words 32 16) × (Bytes 12 × U32 → Bytes 64) => acc (p.run (bothAnswer ω.1 ω.2))) ≤
      share (fun ω : Equiv.Perm (Words 32 16) × Bytes 32 => acc (p.run (bothAnswer ω.1 (chachaFeed ω.1 ω.2)))) + blockBound q a := by
  classical
  have h := share_feed (s := chachaState) (φ := chachaEquiv) (fun k j j' h => (chachaState_inj h).2)
    (fun k k' j j' h => (chachaState_inj h).1) (fun k k' j r h => chachaEquiv_key h) hp acc
  rw [card_key, card_key] at h
  refine h.trans (le_of_eq ?_)
  rw [feedBound, blockBound, ← pow_succ']

theorem feed_abs {O : Type} {p : Prog (Dir Unit (Words 32 16) ⊕ Bytes 12 × U32) (Words 32 16 ⊕ Bytes 64) O} {q a : Nat} (hp : p.Counts q a)
    (acc : O → Prop) :
    |share (fun ω : Equiv.Perm (Words 32 16) × Bytes 32 => acc (p.run (bothAnswer ω.1 (chachaFeed ω.1 ω.2)))) -
      share (fun ω : Equiv.Perm (Words 32 16) × (Bytes 12 × U32 → Bytes 64) => acc (p.run (bothAnswer ω.1 ω.2)))| ≤ blockBound q a := by
  have h1 := feed_le hp acc
  have h2 := feed_le hp fun o => ¬ acc o
  rw [share_sub, share_sub] at h2
  rw [abs_le]
  constructor <;> linarith

/-- **C115.**  The blocks are like random strings: whoever asks the permutation `q` times, in any direction, and for `a` blocks
decides for the code with a random key and a random permutation as often as for a random function of nonce and counter, up to
`blockBound`. -/
theorem C115_prf {O : Type} (p : BlockAttack O) (q a : Nat) (hp : p.Counts q a) (acc : O → Prop) :
    |share (fun ω : Equiv.Perm (Words 32 16) × Bytes 32 => acc (p.run (bothAnswer ω.1 (chachaBlockOf ω.1 ω.2)))) -
      share (fun ω : Equiv.Perm (Words 32 16) × (Bytes 12 × U32 → Bytes 64) => acc (p.run (bothAnswer ω.1 fun j => .ok (ω.2 j).1)))| ≤
      blockBound q a := by
  have h := feed_abs (via_counts returned hp) acc
  have e1 : ∀ ω : Equiv.Perm (Words 32 16) × (Bytes 12 × U32 → Bytes 64),
      acc ((via returned p).run (bothAnswer ω.1 ω.2)) ↔ acc (p.run (bothAnswer ω.1 fun j => .ok (ω.2 j).1)) := fun ω => by
    rw [run_via, returned_both]
  have e2 : ∀ ω : Equiv.Perm (Words 32 16) × Bytes 32,
      acc ((via returned p).run (bothAnswer ω.1 (chachaFeed ω.1 ω.2))) ↔
        acc (p.run (bothAnswer ω.1 (chachaBlockOf ω.1 ω.2))) := fun ω => by
    rw [run_via, returned_both, show chachaBlockOf ω.1 ω.2 = fun j => .ok (chachaFeed ω.1 ω.2 j).1 from
      funext fun j => chachaBlockOf_ok ω.1 ω.2 j]
  rwa [share_congr e1, share_congr e2] at h

/-- An attack that asks for a block, computes back as if the key were 0 and looks whether the constants come out. -/
def backAttack : BlockAttack Bool :=
  .ask (.inr (⟨List.replicate 12 0, List.length_replicate⟩, 1)) fun b =>
    .ask (.inl (.bwd () ⟨List.zipWith (· - ·) ((words32le (match b with | .inr (.ok b) => b | _ => [])).take 16 ++ List.replicate 16 0)
      (chachaState ⟨List.replicate 32 0, List.length_replicate⟩ (⟨List.replicate 12 0, List.length_replicate⟩, 1)).1, by
        rw [List.length_zipWith, (chachaState _ _).2, List.length_append, List.length_replicate]
        omega⟩)) fun r =>
      .ret (match r with | .inl s => s.1.take 4 = words32le ChaCha.constants | .inr _ => false)

theorem backAttack_counts : backAttack.Counts 1 1 := ⟨0, rfl, fun _ => ⟨0, rfl, fun _ => trivial⟩⟩

example := C115_prf backAttack 1 1 backAttack_counts (fun b => b = true)

/-- `2¹⁰⁰` questions and `2⁶⁴` blocks. -/
example : blockBound (2 ^ 100) (2 ^ 64) < 1 / 2 ^ 91 := by
  rw [blockBound, show (2 : ℚ) ^ 513 = (2 ^ 171) ^ 3 from by rw [← pow_mul]]
  norm_num

end Hacspec.Props
